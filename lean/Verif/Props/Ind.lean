import Verif.Lemmas.Ind

/-! # C01: the index type -/

namespace Libube.Ind

open Libube

/-- C01 (everything but the largest value): complementing is defined for every value but the
    largest, gives the arithmetical `-(x+1)`, flips the truth value, and complementing again is
    defined and gives back `x` unless `x` was the smallest value.
    Missing for the full claim: at the largest value `~x` is undefined behaviour
    (`complement_max_undefined`). -/
theorem complement_involution_partial (x : Ind) (hmax : x.toInt ≠ 2 ^ 63 - 1) :
    ∃ y, compl x = .ok y ∧ y.toInt = -(x.toInt + 1) ∧ toBool y = !toBool x ∧
      (x.toInt ≠ -2 ^ 63 → compl y = .ok x) := by
  have hx : x ≠ maxInd := by
    rintro rfl; exact hmax (by decide)
  refine ⟨~~~x, ?_, ?_, ?_, ?_⟩
  · rw [compl, if_neg hx]
    exact congrArg _ (complWrap_eq_not x)
  · rw [not_toInt]; omega
  · have h1 := toBool_iff x
    have h2 := toBool_iff (~~~x)
    rw [not_toInt] at h2
    cases hb : toBool x <;> cases hc : toBool (~~~x) <;> simp_all <;> omega
  · intro hmin
    rw [compl, if_neg]
    · have := complWrap_eq_not (~~~x)
      rw [BitVec.not_not] at this
      exact congrArg _ this
    · intro h
      have h2 : (~~~x).toInt = maxInd.toInt := by rw [h]
      rw [not_toInt] at h2
      have h3 : maxInd.toInt = 2 ^ 63 - 1 := by decide
      omega

example : ((5#64 : Ind).toInt ≠ 2 ^ 63 - 1) ∧ compl 5#64 = .ok (BitVec.ofInt 64 (-6)) := by decide

/-- C01, the missing value: complementing the largest `ind` overflows. -/
theorem complement_max_undefined (x : Ind) : compl x = .ub .overflow ↔ x.toInt = 2 ^ 63 - 1 := by
  have h3 : maxInd.toInt = 2 ^ 63 - 1 := by decide
  constructor
  · intro h
    unfold compl at h
    split at h
    · subst_vars; exact h3
    · exact absurd h (by simp)
  · intro h
    rw [compl, if_pos]
    exact BitVec.eq_of_toInt_eq (by rw [h, h3])

example : (0x7fffffffffffffff#64 : Ind).toInt = 2 ^ 63 - 1 := by decide

/-- C01 on a machine where signed arithmetic wraps: involution and truth flip hold for all
    2^64 values. -/
theorem complement_wrapping (x : Ind) :
    complWrap (complWrap x) = x ∧ toBool (complWrap x) = !toBool x := by
  rw [complWrap_eq_not, complWrap_eq_not, BitVec.not_not]
  refine ⟨rfl, ?_⟩
  have h1 := toBool_iff x
  have h2 := toBool_iff (~~~x)
  rw [not_toInt] at h2
  cases hb : toBool x <;> cases hc : toBool (~~~x) <;> simp_all <;> omega

/-- C01, use as reference encoding: every non-negative `int` index is stored as a value that
    tests as a reference, and complementing that value gives the index back. -/
theorem reference_index_recovered (i : BitVec 32) (h : 0 ≤ i.toInt) :
    ∃ t, encodeRef i = .ok t ∧ isRef t = true ∧ ∃ j, compl t = .ok j ∧ j.toInt = i.toInt := by
  have hi : i ≠ 0x80000000#32 := by
    rintro rfl; exact absurd h (by decide)
  have hlt := BitVec.toInt_lt (x := i)
  have ht : ((-i - 1#32).signExtend 64).toInt = -i.toInt - 1 := by
    rw [BitVec.toInt_signExtend_of_le (by decide)]
    rw [← BitVec.not_eq_neg_add, BitVec.toInt_not]
    have := i.isLt
    have := BitVec.toInt_eq_toNat_cond i
    simp [Int.bmod_def]
    split at this <;> omega
  refine ⟨_, by rw [encodeRef, if_neg hi], ?_, ?_⟩
  · have h1 := toBool_iff ((-i - 1#32).signExtend 64)
    rw [ht] at h1
    unfold isRef
    cases hb : toBool ((-i - 1#32).signExtend 64)
    · rfl
    · rw [hb] at h1; simp at h1; omega
  · obtain ⟨y, hy, hv, _⟩ := complement_involution_partial ((-i - 1#32).signExtend 64)
      (by rw [ht]; omega)
    exact ⟨y, hy, by rw [hv, ht]; omega⟩

example : (0 : Int) ≤ (7#32).toInt ∧ encodeRef 7#32 = .ok (BitVec.ofInt 64 (-8)) := by decide

#print axioms complement_involution_partial
#print axioms complement_max_undefined
#print axioms complement_wrapping
#print axioms reference_index_recovered

end Libube.Ind

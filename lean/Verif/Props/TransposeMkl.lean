import Verif.Lemmas.TransposeMkl
import Verif.Props.Transpose

/-! # C148: transposition does not depend on the library it is built with -/

namespace Libube.TransposeMkl

open View Transpose ViewSpec TransposeSpec TransposeMklSpec

/-- C148 for a new array: whatever is transposed, of whatever type and shape, in bounds or not, has the same outcome with the MKL as without. -/
theorem mkl_transpose_new (L : Lib α) (hL : Contract L) (k : Kind) (junk : List α) (a : Arr α) :
    transposeNew L k junk a = Transpose.transposeNew k junk a := by
  unfold transposeNew Transpose.transposeNew
  simp only [vectorOf_eq, vectorOut_eq hL]

/-- C148 in place, for views of any rank and any type of elements; an array of one dimension throws either way. -/
theorem mkl_transpose_in_place (L : Lib α) (hL : Contract L) (a : Arr α) (k : Kind) (lead : List Int) (hlead : ∀ d ∈ lead, 0 < d) (R C : Nat)
    (hR : 0 < R) (hC : 0 < C) (off b : Int) (v : Arr α) (hv : view a (lead ++ [(R : Int), (C : Int)]) off = .ok v) (hb : offset a = .ok b)
    (h0 : 0 ≤ b + off) (fuel : Nat) (hfuel : R * C ≤ fuel) : transposeInPlace L k v = Transpose.transposeInPlace k fuel v := by
  obtain ⟨b', hb', hd, hs, hl, ho⟩ := view_shape hv
  cases hb.symm.trans hb'
  obtain ⟨o, ho'⟩ : ∃ o : Nat, b + off = o := ⟨(b + off).toNat, by omega⟩
  rw [ho'] at hs hl
  obtain ⟨n, hn, hn0⟩ := prod_nonneg_cast hlead
  have hprod : (lead ++ [(R : Int), (C : Int)]).prod = ((n * (R * C) : Nat) : Int) := by
    rw [List.prod_append, hn]; simp
  rw [hprod] at hl
  have hS : 0 < R * C := Nat.mul_pos hR hC
  have hroom : o + n * (R * C) ≤ v.data.length := by rw [hd]; omega
  have key : broadcast 2 (vectorIn L v) v v = broadcast 2 (Transpose.vectorIn fuel v) v v := by
    have s1 := blockStep_eq hs
    simp only [List.length_cons, List.length_nil, List.prod_cons, List.prod_nil, mul_one] at s1
    unfold broadcast
    rw [s1, hs.size, hprod]
    simp only [Outcome.bind_ok]
    split
    · rfl
    · split
      · rfl
      · refine blocks_congr (len := v.data.length) (N := n) (fun i hi out hlen => ?_) _ 0 _ ?_ rfl
        · have hi' : R * C * i + R * C ≤ n * (R * C) := by
            calc R * C * i + R * C = R * C * (i + 1) := by ring
              _ ≤ R * C * n := Nat.mul_le_mul_left _ hi
              _ = n * (R * C) := Nat.mul_comm _ _
          rw [show ((R : Int) * (C : Int)) * (i : Int) = ((R * C * i : Nat) : Int) by push_cast; rfl]
          refine ⟨vectorIn_eq hL hs fuel hfuel _ _ out (by omega), fun y hy => ?_⟩
          obtain ⟨d', e', h', -⟩ := vectorIn_block hs fuel hfuel ((R * C * i : Nat) : Int) (R * C * i) out (by omega)
          rw [e'] at hy
          cases hy
          exact h'.trans hlen
        · rw [show ((n * (R * C) : Nat) : Int) = (n : Int) * ((R * C : Nat) : Int) by push_cast; rfl,
            show ((R : Int) * (C : Int)) = ((R * C : Nat) : Int) by push_cast; rfl, tdiv_blocks n (R * C) hS]
          omega
  unfold transposeInPlace Transpose.transposeInPlace
  rw [vectorOf_eq]
  by_cases hk : Transpose.Real k
  · rw [vectorOf_real hk, vectorOf_real hk, key]
    rfl
  · rw [vectorOf_other hk, vectorOf_other hk]
    rfl

theorem mkl_one_dimension (L : Lib α) (k : Kind) (xs : List α) (fuel : Nat) :
    transposeInPlace L k ⟨xs, none⟩ = Transpose.transposeInPlace k fuel ⟨xs, none⟩ := rfl

/-! ### A library that keeps the contract -/

/-- Both functions copy element by element. -/
def exact : Lib Nat where
  omatcopy R C _ _ xs := (List.range (C * R)).map fun q => (xs[(q % R) * C + q / R]?).getD 0
  imatcopy R C _ _ xs := (List.range (C * R)).map fun q => (xs[(q % R) * C + q / R]?).getD 0

theorem exact_contract : Contract exact := by
  have h : ∀ R C (xs : List Nat), xs.length = R * C → IsTranspose R C xs ((List.range (C * R)).map fun q => (xs[(q % R) * C + q / R]?).getD 0) := by
    intro R C xs hx
    refine ⟨hx, by simp, fun r c hr hc => ?_⟩
    have h1 : r * C + c < xs.length := by rw [hx]; exact lt_of hr hc
    simp only [List.getElem?_map, List.getElem?_range (lt_of hc hr), Option.map_some, mod_of hr, div_of hr, List.getElem?_eq_getElem h1, Option.getD_some]
  exact ⟨h, h⟩

example : Contract exact ∧ view two ([2] ++ [((2 : Nat) : Int), ((3 : Nat) : Int)]) 1 = .ok twoView ∧
    transposeInPlace exact .float twoView = .ok ⟨[9, 1, 4, 2, 5, 3, 6, 11, 14, 12, 15, 13, 16], some [1, 2, 6, 3, 2, 2, 1]⟩ ∧
    (transposeNew exact .float (List.replicate 12 0) twoView).bind (fun w => .ok w.data) = .ok [1, 4, 2, 5, 3, 6, 11, 14, 12, 15, 13, 16] :=
  ⟨exact_contract, by decide, by decide, by decide⟩

#print axioms mkl_transpose_new
#print axioms mkl_transpose_in_place
#print axioms mkl_one_dimension
#print axioms exact_contract

end Libube.TransposeMkl

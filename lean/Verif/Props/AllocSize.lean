import Verif.Lemmas.AllocSize
import Mathlib.Tactic.Linarith

/-! # C02: array capacities -/

namespace Libube.Alloc

open Libube

/-- C02: for every request of up to 2^30 elements the capacity chosen is the least power of
    two that fits and is at least eight. -/
theorem allocSize_least_pow2 (n : Int) (h0 : 0 ≤ n) (h : n ≤ 2 ^ 30) :
    ∃ c, allocSize n = .ok c ∧ LeastPow2 n c :=
  allocSize_least n h0 h

example : (0 : Int) ≤ 1000 ∧ (1000 : Int) ≤ 2 ^ 30 ∧ allocSize 1000 = .ok 1024 := by
  refine ⟨by decide, by decide, ?_⟩
  rw [allocSize_eq _ (by decide) (by decide)]; decide

/-- C02 over histories: after any non-empty sequence of resizes of a fresh array the size is the
    last one requested, the capacity is the least power of two (at least eight) that fits the
    largest size ever requested, and memory was obtained at most `log2 capacity - 2` times. -/
theorem capacity_of_history (isChar : Bool) (ns : List Int) (hne : ns ≠ [])
    (hns : ∀ n ∈ ns, 0 ≤ n ∧ room isChar n ≤ 2 ^ 30) :
    ∃ c, (Cap.fresh isChar).resizes ns = .ok c ∧ ns.getLast? = some c.size ∧
      LeastPow2 (maxRoom isChar ns) c.capacity ∧ (2 : Int) ^ (c.allocs + 2) ≤ c.capacity := by
  cases ns with
  | nil => exact absurd rfl hne
  | cons n ns =>
    obtain ⟨c1, h1, hch, hsz, hL, hA, _⟩ :=
      resize_step (Cap.fresh isChar) 0 n (hns n (by simp)).1 (hns n (by simp)).2
        (Or.inl ⟨rfl, rfl, rfl⟩)
    have hch : c1.isChar = isChar := hch
    obtain ⟨c2, h2, hL2, hA2, hs2⟩ := resizes_aux ns c1 _ (by
      intro k hk; rw [hch]; exact hns k (by simp [hk])) ⟨hL, hA⟩
    refine ⟨c2, by simp [Cap.resizes, h1, h2], ?_, ?_, hA2⟩
    · rw [hs2, hsz]; cases ns <;> simp [List.getLast?_cons]
    · rw [hch] at hL2; exact hL2

example : (∀ n ∈ [3, 20, 7], (0:Int) ≤ n ∧ room true n ≤ 2 ^ 30) ∧ maxRoom true [3, 20, 7] = 21 := by
  constructor
  · intro n hn; simp at hn; rcases hn with rfl | rfl | rfl <;> decide
  · decide

/-- C02: capacity never shrinks and a resize that fits does not reallocate. -/
theorem resize_no_realloc_if_fits (c : Cap) (m n : Int) (hn : 0 ≤ n)
    (hm : LeastPow2 m c.capacity) (hb : room c.isChar n ≤ 2 ^ 30)
    (hfit : room c.isChar n ≤ c.capacity) :
    c.resize n = .ok { c with size := n } := by
  have hr0 : 0 ≤ room c.isChar n := by unfold room; split <;> omega
  obtain ⟨a, ha, hl⟩ := allocSize_least_pow2 _ hr0 hb
  have ha' : allocSize (if c.isChar = true then n + 1 else n) = .ok a := ha
  obtain ⟨⟨k, hk⟩, h1, h2, _⟩ := hm
  unfold Cap.resize
  rw [if_neg (by omega), if_neg (by omega)]
  simp only [ha', Outcome.bind_ok]
  rw [if_neg]
  have := hl.2.2.2 k (by omega) (by omega)
  omega

example : LeastPow2 9 16 ∧ room false 16 ≤ 16 :=
  ⟨⟨⟨4, by norm_num⟩, by norm_num, by norm_num, by
    intro k h1 _
    by_contra hc
    have : k < 4 := (pow_lt_pow_iff_right₀ (by norm_num : (1:Int) < 2)).1 (by norm_num; omega)
    have : k ≤ 3 := by omega
    have := pow_le_pow_right₀ (by norm_num : (1:Int) ≤ 2) this
    norm_num at this; omega⟩, by decide⟩

/-- Beyond 2^30 elements the `int` overflows: the result is negative, so the request is not
    honoured.  (Not part of C02, which is limited to 2^30; shows the limit is sharp.) -/
theorem allocSize_overflows : allocSize (2 ^ 30 + 1) = .ok (-2 ^ 31) := by
  unfold allocSize minSize
  have h := shiftLoop_toNat (2 ^ 30) 1#32
  have e : Nat.size (2 ^ 30) = 31 := Nat.size_pow
  rw [e] at h
  have hv : shiftLoop (2 ^ 30) 1#32 = 0x80000000#32 := by
    apply BitVec.eq_of_toNat_eq; rw [h]; decide
  have : ((2:Int) ^ 30 + 1).toNat = 2 ^ 30 + 1 := by decide
  simp only [this]
  rw [if_neg (by decide), if_neg (by decide), if_neg (by decide)]
  rw [show (2 ^ 30 + 1 - 1 : Nat) = 2 ^ 30 by decide, hv]
  decide

#print axioms allocSize_least_pow2
#print axioms capacity_of_history
#print axioms resize_no_realloc_if_fits
#print axioms allocSize_overflows

end Libube.Alloc

import Verif.Model.AllocSize
import Verif.Spec.AllocSize
import Mathlib.Data.Nat.Size
import Mathlib.Tactic.Linarith
import Mathlib.Tactic.Ring

namespace Libube.Alloc

open Libube

theorem shiftLoop_toNat (n : Nat) (s : BitVec 32) :
    (shiftLoop n s).toNat = s.toNat * 2 ^ n.size % 2 ^ 32 := by
  induction n using Nat.strong_induction_on generalizing s with
  | _ n ih =>
    rw [shiftLoop]
    split
    · rename_i h
      have hlt : n >>> 1 < n := by simp [Nat.shiftRight_eq_div_pow]; omega
      rw [ih _ hlt]
      have hs : n.size = (n >>> 1).size + 1 := by
        have : n = Nat.bit (n.testBit 0) (n >>> 1) := by
          simp
        conv_lhs => rw [this]
        rw [Nat.size_bit]
        rw [← this]; omega
      rw [hs, BitVec.toNat_shiftLeft, Nat.shiftLeft_eq, pow_succ]
      rw [Nat.mod_mul_mod]
      congr 1; ring
    · have : n = 0 := by omega
      subst this
      have := s.isLt
      simp; omega

theorem allocSize_eq (n : Int) (h0 : 0 ≤ n) (h : n ≤ 2 ^ 30) :
    allocSize n = .ok ((2 : Int) ^ (max n.toNat 8 - 1).size) := by
  unfold allocSize minSize
  rw [if_neg (by omega)]
  have hm : (if n.toNat < 8 then 8 else n.toNat) = max n.toNat 8 := by
    split <;> omega
  simp only [hm]
  rw [if_neg (by omega)]
  congr 1
  have hsz : (max n.toNat 8 - 1).size ≤ 30 := by
    rw [Nat.size_le]
    have : n.toNat ≤ 2 ^ 30 := by omega
    omega
  have hp : 2 ^ (max n.toNat 8 - 1).size ≤ 2 ^ 30 := Nat.pow_le_pow_right (by decide) hsz
  have ht := shiftLoop_toNat (max n.toNat 8 - 1) 1#32
  have h1 : (1#32).toNat = 1 := rfl
  rw [h1, one_mul, Nat.mod_eq_of_lt (by omega)] at ht
  rw [BitVec.toInt_eq_toNat_cond, if_pos (by rw [ht]; omega), ht]
  push_cast; rfl

/-- Beyond 2^30 the result is no size at all. -/
theorem allocSize_over (n : Int) (h : 2 ^ 30 < n) : ∃ c : Int, allocSize n = .ok c ∧ c ≤ 0 ∧ (n ≤ 2 ^ 31 → c < 0) := by
  unfold allocSize minSize
  rw [if_neg (by omega)]
  have hm : (if n.toNat < 8 then 8 else n.toNat) = n.toNat := if_neg (by omega)
  simp only [hm]
  rw [if_neg (by omega)]
  refine ⟨_, rfl, ?_⟩
  have h31 : 31 ≤ (n.toNat - 1).size := by
    rw [Nat.succ_le_iff, Nat.lt_size]
    omega
  have ht := shiftLoop_toNat (n.toNat - 1) 1#32
  have h1 : (1#32).toNat = 1 := rfl
  rw [h1, one_mul] at ht
  rw [BitVec.toInt_eq_toNat_cond, ht]
  rcases Nat.lt_or_ge (n.toNat - 1).size 32 with h2 | h2
  · have : (n.toNat - 1).size = 31 := by omega
    rw [this]
    exact ⟨by decide, fun _ => by decide⟩
  · obtain ⟨d, hd⟩ := Nat.exists_eq_add_of_le h2
    have hz : 2 ^ (n.toNat - 1).size % 2 ^ 32 = 0 := by rw [hd, Nat.pow_add, Nat.mul_mod_right]
    rw [hz]
    refine ⟨by decide, fun hn => ?_⟩
    have : (n.toNat - 1).size ≤ 31 := by
      rw [Nat.size_le]
      omega
    omega

theorem allocSize_top {n c : Int} (h : allocSize n = .ok c) : c ≤ 2 ^ 30 := by
  by_cases h0 : n < 0
  · unfold allocSize at h
    rw [if_pos h0] at h
    cases h
  · rcases le_or_gt n (2 ^ 30) with hn | hn
    · rw [allocSize_eq n (by omega) hn] at h
      cases h
      have hsz : (max n.toNat 8 - 1).size ≤ 30 := by
        rw [Nat.size_le]
        omega
      have hp : 2 ^ (max n.toNat 8 - 1).size ≤ 2 ^ 30 := Nat.pow_le_pow_right (by decide) hsz
      exact_mod_cast hp
    · obtain ⟨d, hd, hl, -⟩ := allocSize_over n hn
      rw [h] at hd
      cases hd
      exact hl.trans (by norm_num)

/-- least power of two at least `max n 8` -/
theorem pow_size_spec (m : Nat) (hm : 0 < m) :
    m ≤ 2 ^ (m - 1).size ∧ ∀ k, m ≤ 2 ^ k → 2 ^ (m - 1).size ≤ 2 ^ k := by
  constructor
  · have := Nat.lt_size_self (m - 1); omega
  · intro k hk
    apply Nat.pow_le_pow_right (by decide)
    rw [Nat.size_le]; omega

theorem allocSize_least (n : Int) (h0 : 0 ≤ n) (h : n ≤ 2 ^ 30) :
    ∃ c, allocSize n = .ok c ∧ LeastPow2 n c := by
  refine ⟨_, allocSize_eq n h0 h, ⟨_, rfl⟩, ?_⟩
  obtain ⟨h1, h2⟩ := pow_size_spec (max n.toNat 8) (by omega)
  generalize (max n.toNat 8 - 1).size = k at *
  have h1' : ((max n.toNat 8 : Nat) : Int) ≤ (2 : Int) ^ k := by exact_mod_cast h1
  refine ⟨by omega, by omega, ?_⟩
  intro j hj hj8
  have : max n.toNat 8 ≤ 2 ^ j := by
    have e : ((2 ^ j : Nat) : Int) = (2 : Int) ^ j := by push_cast; rfl
    omega
  exact_mod_cast h2 j this

theorem LeastPow2.unique {n c d : Int} (hc : LeastPow2 n c) (hd : LeastPow2 n d) : c = d := by
  obtain ⟨⟨k, rfl⟩, c1, c2, c3⟩ := hc
  obtain ⟨⟨l, rfl⟩, d1, d2, d3⟩ := hd
  exact le_antisymm (c3 l d1 d2) (d3 k c1 c2)

theorem LeastPow2.mono {n m c d : Int} (hc : LeastPow2 n c) (hd : LeastPow2 m d) (h : n ≤ m) :
    c ≤ d := by
  obtain ⟨⟨l, rfl⟩, d1, d2, d3⟩ := hd
  exact hc.2.2.2 l (by omega) d2

/-- one resize of an array whose capacity is already right for its largest size so far -/
theorem resize_step (c : Cap) (m n : Int) (hn : 0 ≤ n) (hb : room c.isChar n ≤ 2 ^ 30)
    (hc : (c.capacity = 0 ∧ c.allocs = 0 ∧ m = 0) ∨
      (LeastPow2 m c.capacity ∧ (2 : Int) ^ (c.allocs + 2) ≤ c.capacity)) :
    ∃ c', c.resize n = .ok c' ∧ c'.isChar = c.isChar ∧ c'.size = n ∧
      LeastPow2 (max m (room c.isChar n)) c'.capacity ∧
      (2 : Int) ^ (c'.allocs + 2) ≤ c'.capacity ∧ c.capacity ≤ c'.capacity := by
  have hr0 : 0 ≤ room c.isChar n := by unfold room; split <;> omega
  obtain ⟨a, ha, hl⟩ := allocSize_least _ hr0 hb
  have ha' : allocSize (if c.isChar = true then n + 1 else n) = .ok a := ha
  unfold Cap.resize
  rcases hc with ⟨h0, h1, h2⟩ | ⟨hL, hA⟩
  · rw [if_neg (by omega), if_pos h0]
    simp only [ha', Outcome.bind_ok]
    refine ⟨_, rfl, rfl, rfl, ?_, ?_, ?_⟩
    · rw [h2]; simpa [max_eq_right hr0] using hl
    · simp [h1]; exact hl.2.2.1
    · simp [h0]; have := hl.2.2.1; omega
  · have := hL.2.2.1
    rw [if_neg (by omega), if_neg (by omega)]
    simp only [ha', Outcome.bind_ok]
    split
    · rename_i hlt
      refine ⟨_, rfl, rfl, rfl, ?_, ?_, by simp; omega⟩
      · have hm : m < room c.isChar n := by
          by_contra hcon
          have := LeastPow2.mono hl hL (by omega)
          omega
        rw [max_eq_right hm.le]; exact hl
      · simp only
        obtain ⟨⟨k, hk⟩, _⟩ := hL
        obtain ⟨⟨l, hl'⟩, _⟩ := hl
        rw [hk, hl'] at hlt
        rw [hk] at hA
        have h1 : k < l := (pow_lt_pow_iff_right₀ (by norm_num : (1:Int) < 2)).1 hlt
        have h2 : c.allocs + 2 ≤ k := (pow_le_pow_iff_right₀ (by norm_num : (1:Int) < 2)).1 hA
        rw [hl']
        exact pow_le_pow_right₀ (by norm_num) (by omega)
    · rename_i hge
      refine ⟨_, rfl, rfl, rfl, ?_, hA, le_refl _⟩
      simp only
      rcases le_total m (room c.isChar n) with hm | hm
      · rw [max_eq_right hm]
        have := LeastPow2.mono hL hl hm
        have : c.capacity = a := by omega
        rw [this]; exact hl
      · rw [max_eq_left hm]; exact hL

theorem resizes_aux (ns : List Int) (c : Cap) (m : Int)
    (hns : ∀ n ∈ ns, 0 ≤ n ∧ room c.isChar n ≤ 2 ^ 30)
    (hc : LeastPow2 m c.capacity ∧ (2 : Int) ^ (c.allocs + 2) ≤ c.capacity) :
    ∃ c', c.resizes ns = .ok c' ∧ 
      LeastPow2 (ns.foldl (fun m n => max m (room c.isChar n)) m) c'.capacity ∧
      (2 : Int) ^ (c'.allocs + 2) ≤ c'.capacity ∧ c'.size = (ns.getLast?.getD c.size) := by
  induction ns generalizing c m with
  | nil => exact ⟨c, rfl, hc.1, hc.2, by simp⟩
  | cons n ns ih =>
    obtain ⟨c1, h1, hch, hsz, hL, hA, _⟩ :=
      resize_step c m n (hns n (by simp)).1 (hns n (by simp)).2 (Or.inr hc)
    obtain ⟨c2, h2, hL2, hA2, hs2⟩ := ih c1 _ (by
      intro k hk; rw [hch]; exact hns k (by simp [hk])) ⟨hL, hA⟩
    refine ⟨c2, by simp [Cap.resizes, h1, h2], ?_, hA2, ?_⟩
    · rw [hch] at hL2; simpa using hL2
    · rw [hs2, hsz]; cases ns <;> simp [List.getLast?_cons]


end Libube.Alloc

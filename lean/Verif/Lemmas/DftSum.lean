import Verif.Spec.Dft
import Mathlib.Analysis.SpecialFunctions.Complex.Log

/-! # Sums of roots of 1 -/

namespace Libube.DftSpec

open Complex

theorem root_add (n : Nat) (a b : Int) : root n (a + b) = root n a * root n b := by
  unfold root
  rw [← Complex.exp_add]
  congr 1
  push_cast
  ring

theorem root_zero (n : Nat) : root n 0 = 1 := by simp [root]

theorem root_self {n : Nat} (hn : 0 < n) (m : Int) : root n (n * m) = 1 := by
  unfold root
  rw [Complex.exp_eq_one_iff]
  refine ⟨m, ?_⟩
  have : (n : ℂ) ≠ 0 := by exact_mod_cast hn.ne'
  push_cast
  field_simp

theorem root_conj (n : Nat) (m : Int) : (starRingEnd ℂ) (root n m) = root n (-m) := by
  unfold root
  rw [← Complex.exp_conj]
  congr 1
  simp only [map_div₀, map_mul, Complex.conj_I, Complex.conj_ofReal, map_natCast, map_ofNat, map_intCast]
  push_cast
  ring

theorem root_pow (n : Nat) (m : Int) (k : Nat) : root n m ^ k = root n (k * m) := by
  induction k with
  | zero => simp [root_zero]
  | succ k ih =>
    rw [pow_succ, ih, ← root_add]
    congr 1
    push_cast
    ring

theorem root_ne_one {n : Nat} {m : Int} (hn : 0 < n) (h : ¬ (n : Int) ∣ m) : root n m ≠ 1 := by
  intro he
  unfold root at he
  rw [Complex.exp_eq_one_iff] at he
  obtain ⟨q, hq⟩ := he
  apply h
  refine ⟨q, ?_⟩
  have h1 : (n : ℂ) ≠ 0 := by exact_mod_cast hn.ne'
  have h2 := Complex.two_pi_I_ne_zero
  have h3 : (2 * Real.pi * I) * (m : ℂ) = (2 * Real.pi * I) * ((n : ℂ) * q) := by
    field_simp at hq
    linear_combination (2 * Real.pi * I) * hq
  have h4 := mul_left_cancel₀ h2 h3
  exact_mod_cast h4

/-- The sum over all roots is 0, but for the power 0. -/
theorem root_sum {n : Nat} (hn : 0 < n) {m : Int} (h : ¬ (n : Int) ∣ m) : ∑ k : Fin n, root n (k.val * m) = 0 := by
  have h1 : ∑ k : Fin n, root n (k.val * m) = ∑ k ∈ Finset.range n, root n m ^ k := by
    rw [Finset.sum_range]
    exact Finset.sum_congr rfl (fun k _ => (root_pow n m k).symm)
  rw [h1]
  have h2 := mul_neg_geom_sum (root n m) n
  rw [root_pow, root_self hn] at h2
  rw [sub_self] at h2
  exact (mul_eq_zero.1 h2).resolve_left (sub_ne_zero.2 (root_ne_one hn h).symm)

theorem idft_dft {n : Nat} (hn : 0 < n) (x : Fin n → ℂ) (j : Fin n) : idft n (fun k => dft n x k) j = n * x j := by
  unfold idft dft
  have h1 : ∀ k : Fin n, (∑ l : Fin n, x l * root n (-(l.val * k.val : Nat))) * root n (k.val * j.val : Nat) =
      ∑ l : Fin n, x l * root n (k.val * ((j.val : Int) - l.val)) := by
    intro k
    rw [Finset.sum_mul]
    refine Finset.sum_congr rfl (fun l _ => ?_)
    rw [mul_assoc, ← root_add]
    congr 2
    push_cast
    ring
  simp only [h1]
  rw [Finset.sum_comm]
  simp only [← Finset.mul_sum]
  rw [Finset.sum_eq_single j]
  · simp [root_zero, mul_comm]
  · intro l _ hl
    rw [root_sum hn, mul_zero]
    rintro ⟨q, hq⟩
    have h1 := j.isLt
    have h2 := l.isLt
    apply hl
    apply Fin.ext
    have hq0 : q = 0 := by
      by_contra hne
      rcases lt_or_gt_of_ne hne with h | h
      · have : (n : Int) * q ≤ (n : Int) * (-1) := Int.mul_le_mul_of_nonneg_left (by omega) (by omega)
        omega
      · have : (n : Int) * 1 ≤ (n : Int) * q := Int.mul_le_mul_of_nonneg_left (by omega) (by omega)
        omega
    subst hq0
    omega
  · intro h
    exact absurd (Finset.mem_univ j) h

theorem dft_idft {n : Nat} (hn : 0 < n) (z : Fin n → ℂ) (k : Fin n) : dft n (fun j => idft n z j / n) k = z k := by
  have hn' : (n : ℂ) ≠ 0 := by exact_mod_cast hn.ne'
  have h1 := idft_dft hn (fun j => (starRingEnd ℂ) (z j)) k
  have h2 : ∀ j : Nat, dft n (fun j => (starRingEnd ℂ) (z j)) j = (starRingEnd ℂ) (idft n z j) := by
    intro j
    unfold dft idft
    rw [map_sum]
    refine Finset.sum_congr rfl (fun l _ => ?_)
    rw [map_mul, root_conj]
  have h3 : dft n (fun j => idft n z j / n) k = (starRingEnd ℂ) (idft n (fun j => dft n (fun j => (starRingEnd ℂ) (z j)) j) k) / n := by
    unfold idft
    rw [map_sum, div_eq_mul_inv, Finset.sum_mul]
    unfold dft
    refine Finset.sum_congr rfl (fun l _ => ?_)
    have := h2 l
    unfold dft idft at this
    simp only at this ⊢
    rw [this, map_mul, Complex.conj_conj, root_conj]
    ring
  rw [h3, h1, map_mul, Complex.conj_conj, map_natCast]
  field_simp

/-- The spectrum of real numbers is that of its conjugate, reversed. -/
theorem dft_conj {n : Nat} (hn : 0 < n) (x : Fin n → ℝ) {k : Nat} (hk : k ≤ n) :
    dft n (fun j => (x j : ℂ)) (n - k) = (starRingEnd ℂ) (dft n (fun j => (x j : ℂ)) k) := by
  unfold dft
  rw [map_sum]
  refine Finset.sum_congr rfl (fun j _ => ?_)
  rw [map_mul, Complex.conj_ofReal, root_conj]
  congr 1
  have : (-((j.val * (n - k) : Nat) : Int)) = (n : Int) * (-(j.val : Int)) + (- -((j.val * k : Nat) : Int)) := by
    push_cast [Nat.cast_sub hk]
    ring
  rw [this, root_add, root_self hn, one_mul]

theorem half_sum (m : Nat) (g : Nat → ℝ) (hg : ∀ k, 0 < k → k < 2 * (m + 1) → g (2 * (m + 1) - k) = g k) :
    ∑ k ∈ Finset.range (2 * (m + 1)), g k = ∑ k ∈ Finset.range (m + 2), (if k = 0 ∨ k = m + 1 then 1 else 2) * g k := by
  have h1 : ∑ k ∈ Finset.range (m + 2), (if k = 0 ∨ k = m + 1 then 1 else 2) * g k = g 0 + (∑ k ∈ Finset.range m, 2 * g (k + 1)) + g (m + 1) := by
    rw [Finset.sum_range_succ, Finset.sum_range_succ', if_pos (Or.inl rfl), if_pos (Or.inr rfl)]
    have : ∀ k ∈ Finset.range m, (if k + 1 = 0 ∨ k + 1 = m + 1 then (1 : ℝ) else 2) * g (k + 1) = 2 * g (k + 1) := by
      intro k hk
      have := Finset.mem_range.1 hk
      rw [if_neg (by omega)]
    rw [Finset.sum_congr rfl this]
    ring
  have h2 : ∑ k ∈ Finset.range (2 * (m + 1)), g k = (∑ k ∈ Finset.range m, g (k + 1) + g 0) + ((∑ k ∈ Finset.range m, g (m + 1 + (k + 1))) + g (m + 1)) := by
    rw [show 2 * (m + 1) = (m + 1) + (m + 1) by ring, Finset.sum_range_add, Finset.sum_range_succ' g, Finset.sum_range_succ' (fun k => g (m + 1 + k))]
  have h3 : ∑ k ∈ Finset.range m, g (m + 1 + (k + 1)) = ∑ k ∈ Finset.range m, g (k + 1) := by
    rw [← Finset.sum_range_reflect]
    refine Finset.sum_congr rfl (fun k hk => ?_)
    have := Finset.mem_range.1 hk
    rw [show m + 1 + (m - 1 - k + 1) = 2 * (m + 1) - (k + 1) by omega]
    exact hg _ (by omega) (by omega)
  rw [h1, h2, h3, ← Finset.mul_sum]
  ring

theorem idftr_dft {n : Nat} (hn : 0 < n) (he : n % 2 = 0) (x : Fin n → ℝ) (j : Fin n) :
    idftr n (fun k => dft n (fun j => (x j : ℂ)) k) j = n * x j := by
  obtain ⟨m, rfl⟩ : ∃ m, n = 2 * (m + 1) := ⟨n / 2 - 1, by omega⟩
  have hm : 2 * (m + 1) / 2 = m + 1 := by omega
  set Z := dft (2 * (m + 1)) (fun j => (x j : ℂ)) with hZ
  have hreal : ∀ k, k = 0 ∨ k = m + 1 → ((Z k).re : ℂ) = Z k := by
    intro k hk
    rw [← Complex.conj_eq_iff_re]
    rcases hk with rfl | rfl
    · have h := dft_conj hn x (k := 0) (by omega)
      rw [← hZ] at h
      rw [← h, hZ]
      unfold dft
      refine Finset.sum_congr rfl (fun j _ => ?_)
      congr 1
      rw [show (-((j.val * (2 * (m + 1) - 0) : Nat) : Int)) = ((2 * (m + 1) : Nat) : Int) * (-(j.val : Int)) by push_cast [Nat.sub_zero]; ring, root_self hn]
      simp [root_zero]
    · have h := dft_conj hn x (k := m + 1) (by omega)
      rw [← hZ, show 2 * (m + 1) - (m + 1) = m + 1 by omega] at h
      exact h.symm
  have h1 : idftr (2 * (m + 1)) (fun k => Z k) j = ∑ k ∈ Finset.range (m + 2), (if k = 0 ∨ k = m + 1 then 1 else 2) * (Z k * root (2 * (m + 1)) (k * j.val : Nat)).re := by
    unfold idftr
    have hr : Finset.range (m + 2) = Finset.range (2 * (m + 1) / 2 + 1) := by rw [hm]
    rw [hr, Finset.sum_range]
    refine Finset.sum_congr rfl (fun k _ => ?_)
    have hiff : (k.val = 0 ∨ k.val = 2 * (m + 1) / 2) ↔ (k.val = 0 ∨ k.val = m + 1) := by omega
    by_cases h : k.val = 0 ∨ k.val = m + 1
    · rw [if_pos (hiff.2 h), if_pos (hiff.2 h), if_pos h]
      rw [hreal _ h]
    · rw [if_neg (fun h' => h (hiff.1 h')), if_neg (fun h' => h (hiff.1 h')), if_neg h]
  rw [h1, ← half_sum m (fun k => (Z k * root (2 * (m + 1)) (k * j.val : Nat)).re), Finset.sum_range, ← Complex.re_sum]
  · have h := idft_dft hn (fun j => (x j : ℂ)) j
    unfold idft at h
    rw [← hZ] at h
    rw [h]
    rw [← Complex.ofReal_natCast, ← Complex.ofReal_mul, Complex.ofReal_re]
  · intro k h0 h2
    have h := dft_conj hn x (k := k) (by omega)
    rw [← hZ] at h
    rw [h]
    have hr : root (2 * (m + 1)) ((2 * (m + 1) - k) * j.val : Nat) = (starRingEnd ℂ) (root (2 * (m + 1)) (k * j.val : Nat)) := by
      rw [root_conj]
      have : (((2 * (m + 1) - k) * j.val : Nat) : Int) = ((2 * (m + 1) : Nat) : Int) * (j.val : Int) + -((k * j.val : Nat) : Int) := by
        push_cast [Nat.cast_sub (le_of_lt h2)]
        ring
      rw [this, root_add, root_self hn, one_mul]
    rw [hr, ← map_mul, Complex.conj_re]

end Libube.DftSpec

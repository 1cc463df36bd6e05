import Verif.Props.FloatArith
import Mathlib.Data.Nat.Log
import Mathlib.Tactic.LinearCombination

/-! # C178: arithmetic on single floating point numbers for all finite ones, with infinite results and ties -/

namespace Libube.FloatRange

open FloatRangeSpec

theorem rdiv_even_le {n D e : Nat} (hD : 0 < D) (he : e % 2 = 0) (h0 : 0 < e) : e ≤ rdiv n D ↔ (2 * e - 1) * D ≤ 2 * n := by
  have hm := Nat.div_add_mod n D
  have hl := Nat.mod_lt n hD
  rw [Nat.sub_mul, Nat.one_mul]
  unfold rdiv
  generalize n / D = q at *
  generalize n % D = t at *
  have hqD : D * q = q * D := Nat.mul_comm ..
  rw [hqD] at hm
  rcases Nat.lt_or_ge q e with h | h
  · rcases Nat.lt_or_ge (q + 1) e with h1 | h1
    · have : (q + 2) * D ≤ e * D := Nat.mul_le_mul_right _ h1
      have e1 : 2 * e * D = 2 * (e * D) := Nat.mul_assoc ..
      rw [Nat.add_mul] at this
      split <;> omega
    · obtain rfl : e = q + 1 := by omega
      have e1 : 2 * (q + 1) * D = 2 * (q * D) + 2 * D := by ring
      split <;> omega
  · have : e * D ≤ q * D := Nat.mul_le_mul_right _ h
    have e1 : 2 * e * D = 2 * (e * D) := Nat.mul_assoc ..
    split <;> omega

theorem rdiv_tie {n D c : Nat} (hD : 0 < D) (hc : c ≠ rdiv n D)
    (h : ((rdiv n D * D : Nat) - n : Int).natAbs = ((c * D : Nat) - n : Int).natAbs) :
    rdiv n D % 2 = 0 ∧ (c = rdiv n D + 1 ∨ c + 1 = rdiv n D) := by
  have hm := Nat.div_add_mod n D
  have hl := Nat.mod_lt n hD
  unfold rdiv at *
  generalize n / D = q at *
  generalize n % D = t at *
  have hqD : D * q = q * D := Nat.mul_comm ..
  rw [hqD] at hm
  have e1 : (q + 1) * D = q * D + D := by ring
  have e2 : (q + 2) * D = q * D + 2 * D := by ring
  rcases Nat.lt_trichotomy c q with h1 | rfl | h1
  · have h2 : (c + 1) * D ≤ q * D := Nat.mul_le_mul_right _ h1
    rw [Nat.add_mul] at h2
    split at h <;> split at hc <;> split <;> omega
  · split at h <;> split at hc <;> split <;> omega
  · rcases Nat.lt_or_ge (q + 1) c with h3 | h3
    · have h2 : (q + 2) * D ≤ c * D := Nat.mul_le_mul_right _ h3
      split at h <;> split at hc <;> split <;> omega
    · obtain rfl : c = q + 1 := by omega
      split at h <;> split at hc <;> split <;> omega

theorem rndNat_quot (f : Fmt) (k0 n : Nat) : rndNat f k0 n = rndQuot f n (2 ^ k0) := by
  have hl : (n / 2 ^ k0).log2 = n.log2 - k0 := by
    rw [Nat.log2_eq_log_two, Nat.log2_eq_log_two, Nat.log_div_base_pow]
  unfold rndNat rndQuot
  simp only [hl, ← Nat.pow_add]
  rw [show max k0 (n.log2 - f.frac) = k0 + (n.log2 - k0 - f.frac) by omega, Nat.add_sub_cancel_left]

/-- When the rounded quotient reaches 2^`T`. -/
theorem quot_top {m T n d : Nat} (hd : 0 < d) (hT : m + 2 ≤ T) :
    2 ^ T ≤ rdiv n (d * 2 ^ ((n / d).log2 - m)) * 2 ^ ((n / d).log2 - m) ↔ (2 ^ (T + 1) - 2 ^ (T - 1 - m)) * d ≤ 2 * n := by
  have hq : n / d * d ≤ n := Nat.div_mul_le_self n d
  have hq' : n < (n / d + 1) * d := Nat.lt_mul_of_div_lt (Nat.lt_succ_self _) hd
  have hsmall : 2 ^ (T - 1 - m) ≤ 2 ^ T := Nat.pow_le_pow_right (by omega) (by omega)
  have hT1 : 2 ^ (T + 1) = 2 * 2 ^ T := by rw [Nat.pow_succ, Nat.mul_comm]
  rcases Nat.lt_or_ge (n / d) (2 ^ T) with h | h
  · rcases Nat.lt_or_ge (n / d) (2 ^ (T - 1)) with h1 | h1
    · -- both fail
      have hT2 : 2 ^ T = 2 * 2 ^ (T - 1) := by rw [← Nat.pow_succ']; congr 1; omega
      constructor
      · intro h2
        exfalso
        generalize hk : (n / d).log2 - m = k at *
        have hkT : k ≤ T - 1 := by
          rcases Nat.eq_zero_or_pos (n / d) with h0 | h0
          · rw [h0] at hk; simp at hk; omega
          · have := (log2_bounds h0.ne').1
            have := (Nat.pow_lt_pow_iff_right (a := 2) (by omega)).1 (this.trans_lt h1)
            omega
        have hr : rdiv n (d * 2 ^ k) ≤ 2 ^ (T - 1 - k) := by
          have : n / (d * 2 ^ k) < 2 ^ (T - 1 - k) := by
            rw [← Nat.div_div_eq_div_mul, Nat.div_lt_iff_lt_mul (Nat.two_pow_pos k), ← Nat.pow_add, Nat.sub_add_cancel hkT]
            exact h1
          unfold rdiv
          split <;> omega
        have := Nat.mul_le_mul_right (2 ^ k) hr
        rw [← Nat.pow_add, Nat.sub_add_cancel hkT] at this
        have := Nat.two_pow_pos (T - 1)
        omega
      · intro h2
        exfalso
        have h3 : (n / d + 1) * d ≤ 2 ^ (T - 1) * d := Nat.mul_le_mul_right _ h1
        have h4 : 2 ^ T * d ≤ (2 ^ (T + 1) - 2 ^ (T - 1 - m)) * d := Nat.mul_le_mul_right _ (by omega)
        rw [hT2, Nat.mul_assoc] at h4
        omega
    · have hL : (n / d).log2 = T - 1 := by
        have h0 : n / d ≠ 0 := by have := Nat.two_pow_pos (T - 1); omega
        have hb := log2_bounds h0
        have l1 := (Nat.pow_lt_pow_iff_right (a := 2) (by omega)).1 (hb.1.trans_lt h)
        have l2 := (Nat.pow_lt_pow_iff_right (a := 2) (by omega)).1 (h1.trans_lt hb.2)
        omega
      rw [hL]
      have hp := Nat.two_pow_pos (T - 1 - m)
      have e1 : 2 ^ T = 2 ^ (m + 1) * 2 ^ (T - 1 - m) := by rw [← Nat.pow_add]; congr 1; omega
      have e2 : (2 ^ (T + 1) - 2 ^ (T - 1 - m)) * d = (2 * 2 ^ (m + 1) - 1) * (d * 2 ^ (T - 1 - m)) := by
        rw [hT1, e1, ← Nat.mul_assoc 2, Nat.sub_mul, Nat.sub_mul, Nat.one_mul]
        congr 1 <;> ring
      rw [e2, e1, Nat.mul_le_mul_right_iff hp, rdiv_even_le (Nat.mul_pos hd hp) (by rw [Nat.pow_succ]; omega) (Nat.two_pow_pos _)]
  · have hb := log2_bounds (n := n / d) (by have := Nat.two_pow_pos T; omega)
    have hTL : T ≤ (n / d).log2 := by
      have := (Nat.pow_lt_pow_iff_right (a := 2) (by omega)).1 (h.trans_lt hb.2)
      omega
    constructor
    · intro _
      have h3 : 2 ^ T * d ≤ n / d * d := Nat.mul_le_mul_right _ h
      have h4 : (2 ^ (T + 1) - 2 ^ (T - 1 - m)) * d ≤ 2 * 2 ^ T * d := Nat.mul_le_mul_right _ (hT1 ▸ Nat.sub_le ..)
      rw [Nat.mul_assoc] at h4
      omega
    · intro _
      generalize hk : (n / d).log2 - m = k at *
      have h5 : 2 ^ m ≤ rdiv n (d * 2 ^ k) := by
        have : 2 ^ m ≤ n / (d * 2 ^ k) := by
          rw [← Nat.div_div_eq_div_mul, Nat.le_div_iff_mul_le (Nat.two_pow_pos k), ← Nat.pow_add]
          exact (Nat.pow_le_pow_right (by omega) (by omega)).trans hb.1
        unfold rdiv
        split <;> omega
      calc 2 ^ T ≤ 2 ^ (m + k) := Nat.pow_le_pow_right (by omega) (by omega)
        _ = 2 ^ m * 2 ^ k := Nat.pow_add ..
        _ ≤ _ := Nat.mul_le_mul_right _ h5

theorem quot_tie {m n d z : Nat} (hd : 0 < d) (hz : Short m z)
    (hne : z ≠ rdiv n (d * 2 ^ ((n / d).log2 - m)) * 2 ^ ((n / d).log2 - m))
    (h : ((rdiv n (d * 2 ^ ((n / d).log2 - m)) * 2 ^ ((n / d).log2 - m) * d : Nat) - n : Int).natAbs = ((z * d : Nat) - n : Int).natAbs) :
    ∃ c : Int, ((rdiv n (d * 2 ^ ((n / d).log2 - m)) * 2 ^ ((n / d).log2 - m) : Nat) : Int) =
      2 * c * ((rdiv n (d * 2 ^ ((n / d).log2 - m)) * 2 ^ ((n / d).log2 - m) : Nat) - z) := by
  have hq : n / d * d ≤ n := Nat.div_mul_le_self n d
  generalize hk : (n / d).log2 - m = k at *
  have hp := Nat.two_pow_pos k
  have hdk : 0 < d * 2 ^ k := Nat.mul_pos hd hp
  have assoc : ∀ a : Nat, a * 2 ^ k * d = a * (d * 2 ^ k) := fun a => by ring
  obtain ⟨c, i, rfl, hc⟩ := hz
  rw [assoc] at h
  rcases Nat.lt_or_ge i k with hi | hi
  · exfalso
    have hz : c * 2 ^ i < 2 ^ m * 2 ^ k := by
      calc c * 2 ^ i < 2 ^ (m + 1) * 2 ^ i := Nat.mul_lt_mul_of_pos_right hc (Nat.two_pow_pos i)
        _ = 2 ^ (m + 1 + i) := (Nat.pow_add ..).symm
        _ ≤ 2 ^ (m + k) := Nat.pow_le_pow_right (by omega) (by omega)
        _ = _ := Nat.pow_add ..
    have hn : 2 ^ m * 2 ^ k ≤ n / d := by
      rw [← Nat.pow_add]
      have h0 : n / d ≠ 0 := by intro h0; rw [h0] at hk; simp at hk; omega
      exact (Nat.pow_le_pow_right (by omega) (by omega)).trans (log2_bounds h0).1
    have h1 := rdiv_close (n := n) hdk (2 ^ m)
    have h2 : c * 2 ^ i * d < 2 ^ m * 2 ^ k * d := Nat.mul_lt_mul_of_pos_right hz hd
    have h3 : 2 ^ m * 2 ^ k * d ≤ n / d * d := Nat.mul_le_mul_right _ hn
    rw [assoc] at h2 h3
    omega
  · have hz : c * 2 ^ i = c * 2 ^ (i - k) * 2 ^ k := by
      rw [Nat.mul_assoc, ← Nat.pow_add, Nat.sub_add_cancel hi]
    rw [hz] at h hne ⊢
    rw [assoc] at h
    generalize c * 2 ^ (i - k) = w at *
    obtain ⟨h1, h2⟩ := rdiv_tie hdk (c := w) (by rintro rfl; exact hne rfl) h
    generalize rdiv n (d * 2 ^ k) = R at *
    obtain ⟨e, rfl⟩ : ∃ e, R = 2 * e := ⟨R / 2, by omega⟩
    rcases h2 with rfl | h2
    · exact ⟨-e, by push_cast; ring⟩
    · refine ⟨e, ?_⟩
      have : (w : Int) = 2 * e - 1 := by omega
      push_cast
      rw [this]
      ring

theorem rounded_nonneg (f : Fmt) {n d : Nat} (hd : 0 < d) : Rounded f n d (rndQuot f n d) := by
  have hT : f.frac + 2 ≤ f.top := by cases f <;> decide
  have hlim : largest f + inf f = (2 ^ (f.top + 1) - 2 ^ (f.top - 1 - f.frac) : Nat) := by cases f <;> decide +kernel
  have ht := quot_top (m := f.frac) (T := f.top) (n := n) hd hT
  obtain ⟨s1, s2⟩ := rdiv_short_quot f.frac n d hd
  have s3 := fun z hz => quot_tie (m := f.frac) (n := n) (z := z) hd hz
  have hdef : rndQuot f n d = min (rdiv n (d * 2 ^ ((n / d).log2 - f.frac)) * 2 ^ ((n / d).log2 - f.frac)) (2 ^ f.top) := rfl
  generalize rdiv n (d * 2 ^ ((n / d).log2 - f.frac)) * 2 ^ ((n / d).log2 - f.frac) = R at *
  have hiff : (largest f + inf f) * d ≤ 2 * |(n : Int)| ↔ 2 ^ f.top ≤ R := by
    rw [ht, hlim, Nat.abs_cast]
    exact_mod_cast Iff.rfl
  constructor
  · intro h
    rw [hdef, Nat.min_eq_right (hiff.1 h), inf_eq]
    have : 0 < n := by
      rcases Nat.eq_zero_or_pos n with rfl | h0
      · exfalso
        have hp : 0 < (2 ^ (f.top + 1) - 2 ^ (f.top - 1 - f.frac)) * d :=
          Nat.mul_pos (Nat.sub_pos_of_lt (Nat.pow_lt_pow_right (by omega) (by omega))) hd
        have := ht.1 (hiff.1 h)
        omega
      · exact h0
    rw [Int.sign_eq_one_of_pos (by exact_mod_cast this), Int.one_mul]
  · intro h
    have hlt : R < 2 ^ f.top := by
      by_contra hc
      have := hiff.2 (Nat.le_of_not_lt hc)
      omega
    rw [hdef, Nat.min_eq_left hlt.le]
    refine ⟨(finite_iff f _).2 ⟨by rw [Int.natAbs_natCast]; exact s1, by rw [Int.natAbs_natCast]; exact hlt⟩, fun z hz hzr => ?_⟩
    have hzs := ((finite_iff f z).1 hz).1
    rw [Int.abs_eq_natAbs, Int.abs_eq_natAbs]
    have s0 := s2 0 ⟨0, 0, rfl, Nat.two_pow_pos _⟩
    rcases Int.lt_or_le z 0 with h0 | h0
    · left
      have : z * d ≤ -1 := by nlinarith [(by exact_mod_cast hd : (0 : Int) < d)]
      push_cast at s0
      omega
    · obtain ⟨w, rfl⟩ := Int.eq_ofNat_of_zero_le h0
      rw [Int.natAbs_natCast] at hzs
      have h1 := s2 w hzs
      have h2 := s3 w hzs (by rintro rfl; exact hzr rfl)
      rw [Nat.cast_mul, Nat.cast_mul] at h1 h2
      rcases Nat.lt_or_eq_of_le h1 with h1 | h1
      · left; exact_mod_cast h1
      · right; exact ⟨by exact_mod_cast h1, h2 h1⟩

theorem rounded_neg {f : Fmt} {p q r : Int} (h : Rounded f p q r) : Rounded f (-p) q (-r) := by
  refine ⟨fun h1 => ?_, fun h1 => ?_⟩
  · rw [abs_neg] at h1
    rw [h.1 h1, Int.sign_neg, Int.neg_mul]
  · rw [abs_neg] at h1
    obtain ⟨h2, h3⟩ := h.2 h1
    refine ⟨finite_neg h2, fun z hz hzr => ?_⟩
    have e1 : |-r * q - -p| = |r * q - p| := by rw [← abs_neg]; congr 1; ring
    have e2 : |z * q - -p| = |-z * q - p| := by rw [← abs_neg]; congr 1; ring
    rw [e1, e2]
    rcases h3 (-z) (finite_neg hz) (by rintro rfl; exact hzr (by ring)) with h4 | ⟨h4, c, hc⟩
    · exact .inl h4
    · exact .inr ⟨h4, c, by linear_combination -hc⟩

theorem rounded_rnd (f : Fmt) (k0 : Nat) (x : Int) : Rounded f x (2 ^ k0) (rnd f k0 x) := by
  have h := rounded_nonneg f (n := x.natAbs) (d := 2 ^ k0) (Nat.two_pow_pos k0)
  rw [← rndNat_quot, Nat.cast_pow, Nat.cast_ofNat] at h
  unfold rnd
  split
  · have := rounded_neg h
    rwa [show -(x.natAbs : Int) = x by omega] at this
  · rwa [show (x.natAbs : Int) = x by omega] at h

/-- C178 for sums of all finite numbers. -/
theorem sum_rounded (f : Fmt) (x y : Int) (hx : Finite f x) (hy : Finite f y) :
    ∃ r, add (.flt f (some x)) (.flt f (some y)) = .ok (.flt f (some r)) ∧ Rounded f (x + y) 1 r := by
  refine ⟨rnd f 0 (x + y), by rw [add, castF_self, addF_finite hx hy], ?_⟩
  have := rounded_rnd f 0 (x + y)
  rwa [pow_zero] at this

/-- C178 for differences. -/
theorem difference_rounded (f : Fmt) (x y : Int) (hx : Finite f x) (hy : Finite f y) :
    ∃ r, sub (.flt f (some x)) (.flt f (some y)) = .ok (.flt f (some r)) ∧ Rounded f (x - y) 1 r := by
  refine ⟨rnd f 0 (x + -y), ?_, ?_⟩
  · rw [sub, castF_self, show negF (some y) = some (-y) from rfl, addF_finite hx (finite_neg hy)]
  · have := rounded_rnd f 0 (x + -y)
    rwa [pow_zero, ← Int.sub_eq_add_neg] at this

/-- C178 for products. -/
theorem product_rounded (f : Fmt) (x y : Int) (hx : Finite f x) (hy : Finite f y) :
    ∃ r, mulNum f (some x) (.flt f (some y)) = .flt f (some r) ∧ Rounded f (x * y) (one f) r := by
  have h1 := finite_lt hx
  have h2 := finite_lt hy
  refine ⟨rnd f f.unit (x * y), by rw [mulNum, castF_self, mulF, if_neg (by omega)], ?_⟩
  rw [one_eq]
  exact rounded_rnd f f.unit (x * y)

/-- C178 for quotients: x / y is (x * sign y) / |y|. -/
theorem quotient_rounded (f : Fmt) (x y : Int) (hx : Finite f x) (hy : Finite f y) (hy0 : y ≠ 0) :
    ∃ r, divNum f (some x) (.flt f (some y)) = .ok (.flt f (some r)) ∧ Rounded f (x * y.sign * one f) |y| r := by
  have h1 := finite_lt hx
  have h2 := finite_lt hy
  refine ⟨(x * y).sign * rndQuot f (x.natAbs * 2 ^ f.unit) y.natAbs, ?_, ?_⟩
  · unfold divNum
    rw [castF_self, divF, if_neg hy0]
    rw [if_neg (by omega), if_neg (by omega)]
    rfl
  · have h := rounded_nonneg f (n := x.natAbs * 2 ^ f.unit) (Int.natAbs_pos.2 hy0)
    rw [one_eq, Int.abs_eq_natAbs]
    rw [Nat.cast_mul, Nat.cast_pow, Nat.cast_ofNat] at h
    have ex := Int.sign_mul_natAbs x
    have ep : x * y.sign * 2 ^ f.unit = (x * y).sign * (x.natAbs * 2 ^ f.unit) := by
      rw [Int.sign_mul]
      linear_combination (-(y.sign * 2 ^ f.unit)) * ex
    rw [ep]
    rcases Int.lt_trichotomy (x * y) 0 with hs | hs | hs
    · rw [Int.sign_eq_neg_one_of_neg hs, neg_one_mul, neg_one_mul]
      exact rounded_neg h
    · have hx0 : x = 0 := by
        rcases mul_eq_zero.1 hs with h | h
        exacts [h, absurd h hy0]
      subst hx0
      simp only [Int.natAbs_zero, Nat.cast_zero, zero_mul, Int.sign_zero] at h ⊢
      rwa [show rndQuot f 0 y.natAbs = 0 by simp [rndQuot, rdiv, Int.natAbs_pos.2 hy0], Nat.cast_zero] at h
    · rw [Int.sign_eq_one_of_pos hs, one_mul, one_mul]
      exact h

/-- A tie, and two results that are infinite. -/
example : Finite .float (2 ^ 173) ∧ Finite .float (2 ^ 149) ∧ Finite .float (largest .float) ∧ Finite .float 1 ∧
    add (.flt .float (some (2 ^ 173))) (.flt .float (some (2 ^ 149))) = .ok (.flt .float (some (2 ^ 173))) ∧
    mulNum .float (some (2 ^ 173)) (.flt .float (some (largest .float))) = .flt .float (some (inf .float)) ∧
    divNum .float (some (largest .float)) (.flt .float (some 1)) = .ok (.flt .float (some (inf .float))) :=
  ⟨⟨0x4B800000, by decide +kernel, by decide +kernel⟩, ⟨0x3F800000, by decide +kernel, by decide +kernel⟩,
    ⟨0x7F7FFFFF, by decide +kernel, by decide +kernel⟩, ⟨1, by decide +kernel, by decide +kernel⟩, by decide +kernel⟩

theorem rounded_self {f : Fmt} {x : Int} (h : Finite f x) : Rounded f x 1 x := by
  have h1 := rounded_rnd f 0 x
  have h2 := rnd_unit_exact (k0 := 0) h
  rw [pow_zero, Int.mul_one] at h2
  rwa [h2, pow_zero] at h1

theorem lt_shift {a k s t : Nat} (h : s + k ≤ t) (ha : a < 2 ^ s) : a * 2 ^ k < 2 ^ t := by
  have h1 : a * 2 ^ k < 2 ^ s * 2 ^ k := Nat.mul_lt_mul_of_pos_right ha (Nat.two_pow_pos _)
  rw [← Nat.pow_add] at h1
  exact h1.trans_le (Nat.pow_le_pow_right (by omega) h)

theorem finite_widen {x : Int} (h : Finite .float x) : Finite .double (x * 2 ^ 925) := by
  obtain ⟨⟨c, i, h1, h2⟩, h3⟩ := (finite_iff .float x).1 h
  have e : (x * 2 ^ 925).natAbs = x.natAbs * 2 ^ 925 := by rw [Int.natAbs_mul, Int.natAbs_pow]; rfl
  refine (finite_iff .double _).2 ⟨?_, ?_⟩
  · rw [e, h1]
    exact short_shift ⟨c, i, rfl, h2.trans (Nat.pow_lt_pow_right (by omega) (by decide))⟩
  · rw [e]
    have ht : Fmt.float.top + 925 ≤ Fmt.double.top := by decide
    exact lt_shift ht h3

theorem cast_rounded {f : Fmt} {b : Num} {p q : Int} (h : Exactly f b p q) : ∃ y, castF f b = some y ∧ Rounded f p q y := by
  cases h with
  | int x =>
    refine ⟨_, rfl, ?_⟩
    have := rounded_rnd f 0 (x.v * 2 ^ f.unit)
    rw [pow_zero] at this
    rw [one_eq]
    exact this
  | same _ hx => exact ⟨p, castF_self .., rounded_self hx⟩
  | narrow _ hf hx =>
    subst hf
    exact ⟨_, rfl, rounded_rnd .float 925 p⟩
  | widen x hf hx =>
    subst hf
    refine ⟨x * 2 ^ 925, ?_, rounded_self (finite_widen hx)⟩
    have := finite_lt hx
    rw [castF, Option.map_some, if_neg (by omega)]
    rfl

/-- C178 for right operands of other types: what is added, subtracted, multiplied by or divided by is the operand rounded to the type
    of the left one. -/
theorem operand_rounded (f : Fmt) (b : Num) (p q : Int) (h : Exactly f b p q) : ∃ y, Rounded f p q y ∧ ∀ a,
    add (.flt f a) b = add (.flt f a) (.flt f (some y)) ∧ sub (.flt f a) b = sub (.flt f a) (.flt f (some y)) ∧
    mulNum f a b = mulNum f a (.flt f (some y)) ∧ divNum f a b = divNum f a (.flt f (some y)) := by
  obtain ⟨y, h1, h2⟩ := cast_rounded h
  refine ⟨y, h2, fun a => ?_⟩
  rw [add, add, sub, sub, mulNum, mulNum, divNum, divNum, castF_self, h1]
  exact ⟨rfl, rfl, rfl, rfl⟩

/-- The integer 2^24 + 1 and the double 1 + 2^-30, both not of type float. -/
example : Exactly .float (.int ⟨.int, 2 ^ 24 + 1⟩) ((2 ^ 24 + 1) * 2 ^ 149) 1 ∧
    Exactly .float (.flt .double (some (2 ^ 1074 + 2 ^ 1044))) (2 ^ 1074 + 2 ^ 1044) (2 ^ 925) ∧
    Exactly .double (.flt .float (some (2 ^ 149))) (2 ^ 149 * 2 ^ 925) 1 :=
  ⟨.int _, .narrow _ rfl ⟨0x3FF0000000400000, by decide +kernel, by decide +kernel⟩,
    .widen _ rfl ⟨0x3F800000, by decide +kernel, by decide +kernel⟩⟩

end Libube.FloatRange

#print axioms Libube.FloatRange.sum_rounded
#print axioms Libube.FloatRange.difference_rounded
#print axioms Libube.FloatRange.product_rounded
#print axioms Libube.FloatRange.quotient_rounded
#print axioms Libube.FloatRange.operand_rounded

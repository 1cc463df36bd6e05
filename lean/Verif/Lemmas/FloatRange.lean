import Verif.Spec.FloatRange
import Mathlib.Tactic.Ring
import Mathlib.Tactic.Linarith
import Mathlib.Tactic.NormNum

/-! # Rounding -/

namespace Libube.FloatRange

open FloatRangeSpec

theorem rdiv_dvd {n d : Nat} (hd : 0 < d) (h : d ∣ n) : rdiv n d * d = n := by
  unfold rdiv
  rw [Nat.mod_eq_zero_of_dvd h, if_pos (.inl (by omega)), Nat.div_mul_cancel h]

/-- No multiple of `d` is closer. -/
theorem rdiv_close {n d : Nat} (hd : 0 < d) (c : Nat) : ((rdiv n d * d : Nat) - n : Int).natAbs ≤ ((c * d : Nat) - n : Int).natAbs := by
  have h0 := Nat.div_add_mod n d
  have hm := Nat.mod_lt n hd
  generalize hq : n / d = q at *
  generalize hr : n % d = r at *
  rw [Nat.mul_comm] at h0
  have hc : c * d ≤ q * d ∨ (q + 1) * d ≤ c * d := by
    rcases Nat.lt_or_ge q c with h | h
    · exact .inr (Nat.mul_le_mul_right d h)
    · exact .inl (Nat.mul_le_mul_right d h)
  have hs : (q + 1) * d = q * d + d := Nat.succ_mul q d
  unfold rdiv
  rw [hq, hr]
  split
  · generalize q * d = a at *
    generalize c * d = b at *
    generalize (q + 1) * d = e at *
    omega
  · generalize q * d = a at *
    generalize c * d = b at *
    generalize (q + 1) * d = e at *
    omega

theorem log2_bounds {n : Nat} (h : n ≠ 0) : 2 ^ n.log2 ≤ n ∧ n < 2 ^ (n.log2 + 1) :=
  ⟨(Nat.le_log2 h).1 (Nat.le_refl _), Nat.lt_log2_self⟩

/-- What is on the grid is not changed by rounding. -/
theorem rndNat_grid {f : Fmt} {k a : Nat} (ha : a ≤ 2 ^ (f.frac + 1)) (ht : a * 2 ^ k ≤ 2 ^ f.top) : rndNat f 0 (a * 2 ^ k) = a * 2 ^ k := by
  have hdvd : 2 ^ ((a * 2 ^ k).log2 - f.frac) ∣ a * 2 ^ k := by
    rcases Nat.eq_zero_or_pos a with rfl | hp
    · simp
    · have hn : a * 2 ^ k ≠ 0 := (Nat.mul_pos hp (Nat.two_pow_pos k)).ne'
      rcases Nat.lt_or_ge a (2 ^ (f.frac + 1)) with h | h
      · have h1 : (a * 2 ^ k).log2 < f.frac + 1 + k := by
          rw [Nat.log2_lt hn, Nat.pow_add]
          exact Nat.mul_lt_mul_of_pos_right h (Nat.two_pow_pos k)
        exact Dvd.dvd.mul_left (Nat.pow_dvd_pow 2 (by omega)) a
      · obtain rfl : a = 2 ^ (f.frac + 1) := by omega
        rw [← Nat.pow_add, Nat.log2_two_pow]
        exact Nat.pow_dvd_pow 2 (by omega)
  unfold rndNat
  simp only [Nat.zero_max, Nat.sub_zero]
  rw [rdiv_dvd (Nat.two_pow_pos _) hdvd]
  exact Nat.min_eq_left ht

theorem rnd_grid {f : Fmt} {k : Nat} {x : Int} (h : OnGrid f k x) (ht : x.natAbs ≤ 2 ^ f.top) : rnd f 0 x = x := by
  obtain ⟨a, rfl, ha⟩ := h
  have e : (a * 2 ^ k).natAbs = a.natAbs * 2 ^ k := by rw [Int.natAbs_mul, Int.natAbs_pow]; rfl
  rw [e] at ht
  unfold rnd
  rw [e, rndNat_grid ha ht, ← e]
  split
  · rw [Int.natCast_natAbs, abs_of_neg ‹_›]; ring
  · rw [Int.natCast_natAbs, abs_of_nonneg (by omega)]

/-- Numbers with at most `m`+1 binary digits before zeros. -/
def Short (m n : Nat) : Prop := ∃ c i, n = c * 2 ^ i ∧ c < 2 ^ (m + 1)

theorem value_short {e m bits : Nat} {x : Int} (h : Ieee.value e m bits = some x) : Short m x.natAbs ∧ x.natAbs ≤ 2 ^ (m + 2 ^ e - 2) := by
  unfold Ieee.value at h
  simp only at h
  have hf : bits % 2 ^ m < 2 ^ m := Nat.mod_lt _ (Nat.two_pow_pos m)
  have he : bits / 2 ^ m % 2 ^ e < 2 ^ e := Nat.mod_lt _ (Nat.two_pow_pos e)
  have h2 : 2 ^ (m + 1) = 2 ^ m + 2 ^ m := by rw [Nat.pow_succ]; omega
  generalize bits % 2 ^ m = fr at *
  generalize bits / 2 ^ m % 2 ^ e = ex at *
  split at h
  · exact absurd h (by simp)
  · rename_i hn
    have hx : x.natAbs = if ex = 0 then fr else (2 ^ m + fr) * 2 ^ (ex - 1) := by
      rw [← Option.some.inj h]
      split <;> simp only [Int.natAbs_neg, Int.natAbs_natCast]
    rw [hx]
    split
    · refine ⟨⟨fr, 0, by simp, by omega⟩, ?_⟩
      rcases Nat.eq_zero_or_pos e with rfl | hp
      · obtain rfl : ex = 0 := by omega
        have : fr = 0 := by
          by_contra hfr
          exact hn ⟨rfl, hfr⟩
        rw [this]; exact Nat.zero_le _
      · have : 2 ≤ 2 ^ e := by
          calc 2 = 2 ^ 1 := rfl
            _ ≤ 2 ^ e := Nat.pow_le_pow_right (by omega) hp
        exact (Nat.le_of_lt hf).trans (Nat.pow_le_pow_right (by omega) (by omega))
    · rename_i hex
      refine ⟨⟨_, _, rfl, by omega⟩, ?_⟩
      by_cases hm : ex = 2 ^ e - 1
      · have : fr = 0 := by
          by_contra hfr
          exact hn ⟨hm, hfr⟩
        rw [this, Nat.add_zero, ← Nat.pow_add]
        exact Nat.pow_le_pow_right (by omega) (by omega)
      · calc (2 ^ m + fr) * 2 ^ (ex - 1) ≤ 2 ^ (m + 1) * 2 ^ (ex - 1) := Nat.mul_le_mul_right _ (by omega)
          _ = 2 ^ (m + 1 + (ex - 1)) := (Nat.pow_add ..).symm
          _ ≤ _ := Nat.pow_le_pow_right (by omega) (by omega)

theorem pack_value {e m fr ex s : Nat} (hf : fr < 2 ^ m) (he : ex < 2 ^ e) (hs : s < 2) :
    (s * 2 ^ (m + e) + ex * 2 ^ m + fr) % 2 ^ m = fr ∧ (s * 2 ^ (m + e) + ex * 2 ^ m + fr) / 2 ^ m % 2 ^ e = ex ∧
      (s * 2 ^ (m + e) + ex * 2 ^ m + fr) / 2 ^ (m + e) % 2 = s ∧ s * 2 ^ (m + e) + ex * 2 ^ m + fr < 2 ^ (m + e + 1) := by
  have e1 : s * 2 ^ (m + e) + ex * 2 ^ m + fr = fr + 2 ^ m * (ex + 2 ^ e * s) := by rw [Nat.pow_add]; ring
  have hm := Nat.two_pow_pos m
  have hlow : ex * 2 ^ m + fr < 2 ^ (m + e) := by
    rw [Nat.pow_add]
    calc ex * 2 ^ m + fr < ex * 2 ^ m + 2 ^ m := by omega
      _ = (ex + 1) * 2 ^ m := by ring
      _ ≤ 2 ^ e * 2 ^ m := Nat.mul_le_mul_right _ he
      _ = _ := Nat.mul_comm ..
  refine ⟨?_, ?_, ?_, ?_⟩
  · rw [e1, Nat.add_mul_mod_self_left, Nat.mod_eq_of_lt hf]
  · rw [e1, Nat.add_mul_div_left _ _ hm, Nat.div_eq_of_lt hf, Nat.zero_add, Nat.add_mul_mod_self_left, Nat.mod_eq_of_lt he]
  · rw [show s * 2 ^ (m + e) + ex * 2 ^ m + fr = (ex * 2 ^ m + fr) + 2 ^ (m + e) * s by ring, Nat.add_mul_div_left _ _ (Nat.two_pow_pos _),
      Nat.div_eq_of_lt hlow, Nat.zero_add, Nat.mod_eq_of_lt hs]
  · have : 2 ^ (m + e + 1) = 2 ^ (m + e) + 2 ^ (m + e) := by rw [Nat.pow_succ]; omega
    have h3 : s * 2 ^ (m + e) ≤ 2 ^ (m + e) := by
      calc s * 2 ^ (m + e) ≤ 1 * 2 ^ (m + e) := Nat.mul_le_mul_right _ (by omega)
        _ = _ := Nat.one_mul _
    omega

theorem short_dvd {m n : Nat} (h : Short m n) : 2 ^ (n.log2 - m) ∣ n := by
  obtain ⟨c, i, rfl, hc⟩ := h
  rcases Nat.eq_zero_or_pos c with rfl | hp
  · simp
  · have hn : c * 2 ^ i ≠ 0 := (Nat.mul_pos hp (Nat.two_pow_pos i)).ne'
    have h1 : (c * 2 ^ i).log2 < m + 1 + i := by
      rw [Nat.log2_lt hn, Nat.pow_add]
      exact Nat.mul_lt_mul_of_pos_right hc (Nat.two_pow_pos i)
    exact Dvd.dvd.mul_left (Nat.pow_dvd_pow 2 (by omega)) c

theorem short_value {e m : Nat} {x : Int} (he : 1 < e) (h : Short m x.natAbs) (hx : x.natAbs < 2 ^ (m + 2 ^ e - 2)) :
    ∃ bits, bits < 2 ^ (m + e + 1) ∧ Ieee.value e m bits = some x := by
  have h4 : 4 ≤ 2 ^ e := by
    calc 4 = 2 ^ 2 := rfl
      _ ≤ 2 ^ e := Nat.pow_le_pow_right (by omega) he
  obtain ⟨fr, ex, hf, hex, hmag⟩ : ∃ fr ex, fr < 2 ^ m ∧ ex < 2 ^ e - 1 ∧ (if ex = 0 then fr else (2 ^ m + fr) * 2 ^ (ex - 1)) = x.natAbs := by
    rcases Nat.lt_or_ge x.natAbs (2 ^ m) with hl | hl
    · exact ⟨x.natAbs, 0, hl, by omega, rfl⟩
    · have hn : x.natAbs ≠ 0 := by have := Nat.two_pow_pos m; omega
      have hlog : m ≤ x.natAbs.log2 := (Nat.le_log2 hn).2 hl
      have hlt : x.natAbs.log2 < m + 2 ^ e - 2 := (Nat.log2_lt hn).2 hx
      obtain ⟨b1, b2⟩ := log2_bounds hn
      obtain ⟨c, hc⟩ := short_dvd h
      have p1 : 2 ^ x.natAbs.log2 = 2 ^ (x.natAbs.log2 - m) * 2 ^ m := by rw [← Nat.pow_add]; congr 1; omega
      have p2 : 2 ^ (x.natAbs.log2 + 1) = 2 ^ (x.natAbs.log2 - m) * 2 ^ (m + 1) := by rw [← Nat.pow_add]; congr 1; omega
      generalize x.natAbs.log2 - m = k at *
      have c1 : 2 ^ m ≤ c := Nat.le_of_mul_le_mul_left (by rw [← p1, ← hc]; exact b1) (Nat.two_pow_pos k)
      have c2 : c < 2 ^ (m + 1) := Nat.lt_of_mul_lt_mul_left (a := 2 ^ k) (by rw [← p2, ← hc]; exact b2)
      have h2 : 2 ^ (m + 1) = 2 ^ m + 2 ^ m := by rw [Nat.pow_succ]; omega
      have hk : k + m = x.natAbs.log2 := by
        have := p1
        rw [← Nat.pow_add] at this
        exact (Nat.pow_right_injective (le_refl 2) this).symm
      refine ⟨c - 2 ^ m, k + 1, by omega, by omega, ?_⟩
      rw [if_neg (by omega), Nat.add_sub_cancel' c1, Nat.add_sub_cancel, hc, Nat.mul_comm]
  obtain ⟨s, hs, hsx⟩ : ∃ s, s < 2 ∧ (if s = 1 then -(x.natAbs : Int) else x.natAbs) = x := by
    rcases lt_or_ge x 0 with hneg | hpos
    · exact ⟨1, by omega, by rw [if_pos rfl]; omega⟩
    · exact ⟨0, by omega, by rw [if_neg (by omega)]; omega⟩
  obtain ⟨p1, p2, p3, p4⟩ := pack_value (m := m) (e := e) (ex := ex) hf (by omega) hs
  refine ⟨_, p4, ?_⟩
  unfold Ieee.value
  simp only [p1, p2, p3, hmag]
  rw [if_neg (by omega), hsx]

theorem finite_iff (f : Fmt) (x : Int) : Finite f x ↔ Short f.frac x.natAbs ∧ x.natAbs < 2 ^ f.top := by
  cases f with
  | float =>
    constructor
    · rintro ⟨b, h, hne⟩
      obtain ⟨h1, h2⟩ := value_short h
      exact ⟨h1, Nat.lt_of_le_of_ne h2 hne⟩
    · rintro ⟨h1, h2⟩
      obtain ⟨b, hb, e⟩ := short_value (e := 8) (by omega) h1 h2
      refine ⟨BitVec.ofNat 32 b, ?_, h2.ne⟩
      unfold Ieee.val32
      rw [BitVec.toNat_ofNat, Nat.mod_eq_of_lt (show b < 2 ^ 32 from hb)]
      exact e
  | double =>
    constructor
    · rintro ⟨b, h, hne⟩
      obtain ⟨h1, h2⟩ := value_short h
      exact ⟨h1, Nat.lt_of_le_of_ne h2 hne⟩
    · rintro ⟨h1, h2⟩
      obtain ⟨b, hb, e⟩ := short_value (e := 11) (by omega) h1 h2
      refine ⟨BitVec.ofNat 64 b, ?_, h2.ne⟩
      unfold Ieee.val64
      rw [BitVec.toNat_ofNat, Nat.mod_eq_of_lt (show b < 2 ^ 64 from hb)]
      exact e

/-- Without the bound, the rounded magnitude has few digits and no such number is closer. -/
theorem rdiv_short (m n : Nat) : Short m (rdiv n (2 ^ (n.log2 - m)) * 2 ^ (n.log2 - m)) ∧
    ∀ z, Short m z → ((rdiv n (2 ^ (n.log2 - m)) * 2 ^ (n.log2 - m) : Nat) - n : Int).natAbs ≤ ((z : Int) - n).natAbs := by
  rcases Nat.lt_or_ge n.log2 m with hl | hl
  · have e0 : n.log2 - m = 0 := by omega
    rw [e0]
    have hr : rdiv n (2 ^ 0) * 2 ^ 0 = n := rdiv_dvd (by norm_num) (by simp)
    rw [hr]
    refine ⟨⟨n, 0, by simp, ?_⟩, fun z _ => by omega⟩
    rcases Nat.eq_zero_or_pos n with rfl | hp
    · exact Nat.two_pow_pos _
    · exact (log2_bounds hp.ne').2.trans_le (Nat.pow_le_pow_right (by omega) (by omega))
  · rcases Nat.eq_zero_or_pos n with rfl | hp
    · obtain rfl : m = 0 := by simpa using hl
      refine ⟨⟨0, 0, by decide, by decide⟩, fun z _ => ?_⟩
      have : rdiv 0 (2 ^ (Nat.log2 0 - 0)) * 2 ^ (Nat.log2 0 - 0) = 0 := by decide
      rw [this]
      omega
    obtain ⟨b1, b2⟩ := log2_bounds hp.ne'
    have p1 : 2 ^ n.log2 = 2 ^ m * 2 ^ (n.log2 - m) := by rw [← Nat.pow_add]; congr 1; omega
    have p2 : 2 ^ (n.log2 + 1) = 2 ^ (m + 1) * 2 ^ (n.log2 - m) := by rw [← Nat.pow_add]; congr 1; omega
    have hlog : n.log2 = m + (n.log2 - m) := by omega
    generalize n.log2 - m = k at *
    have hd := Nat.two_pow_pos k
    constructor
    · have hle : rdiv n (2 ^ k) ≤ 2 ^ (m + 1) := by
        have : n / 2 ^ k < 2 ^ (m + 1) := by
          rw [Nat.div_lt_iff_lt_mul hd, ← p2]
          exact b2
        unfold rdiv
        split <;> omega
      rcases Nat.lt_or_ge (rdiv n (2 ^ k)) (2 ^ (m + 1)) with h | h
      · exact ⟨_, _, rfl, h⟩
      · refine ⟨1, m + 1 + k, ?_, Nat.one_lt_two_pow (by omega)⟩
        rw [show rdiv n (2 ^ k) = 2 ^ (m + 1) by omega, ← Nat.pow_add, Nat.one_mul]
    · rintro z ⟨c, i, rfl, hc⟩
      rcases Nat.lt_or_ge i k with hi | hi
      · have hz : c * 2 ^ i < 2 ^ m * 2 ^ k := by
          calc c * 2 ^ i < 2 ^ (m + 1) * 2 ^ i := Nat.mul_lt_mul_of_pos_right hc (Nat.two_pow_pos i)
            _ = 2 ^ (m + 1 + i) := (Nat.pow_add ..).symm
            _ ≤ 2 ^ (m + k) := Nat.pow_le_pow_right (by omega) (by omega)
            _ = _ := Nat.pow_add ..
        have := rdiv_close (n := n) hd (2 ^ m)
        omega
      · have hz : c * 2 ^ i = c * 2 ^ (i - k) * 2 ^ k := by
          rw [Nat.mul_assoc, ← Nat.pow_add]
          congr 2
          omega
        rw [hz]
        exact rdiv_close hd _

/-- Rounding gives a closest number if it does not give infinity. -/
theorem rnd_closest {f : Fmt} {x : Int} (h : (rnd f 0 x).natAbs ≠ 2 ^ f.top) : Closest f x (rnd f 0 x) := by
  obtain ⟨h1, h2⟩ := rdiv_short f.frac x.natAbs
  have hn : (rnd f 0 x).natAbs = rndNat f 0 x.natAbs := by
    unfold rnd
    split
    · rw [Int.natAbs_neg, Int.natAbs_natCast]
    · rw [Int.natAbs_natCast]
  have hr : rndNat f 0 x.natAbs = rdiv x.natAbs (2 ^ (x.natAbs.log2 - f.frac)) * 2 ^ (x.natAbs.log2 - f.frac) ∧ rndNat f 0 x.natAbs < 2 ^ f.top := by
    rw [hn] at h
    unfold rndNat at h ⊢
    simp only [Nat.zero_max, Nat.sub_zero] at h ⊢
    omega
  rw [← hr.1] at h1 h2
  refine ⟨(finite_iff f _).2 ⟨by rw [hn]; exact h1, by rw [hn]; exact hr.2⟩, fun z hz => ?_⟩
  have := h2 z.natAbs ((finite_iff f z).1 hz).1
  unfold rnd
  split
  · omega
  · omega

/-- Rounding does not go beyond a number with few digits. -/
theorem rndNat_le {f : Fmt} {n M : Nat} (h : n ≤ M) (hM : Short f.frac M) : rndNat f 0 n ≤ M := by
  unfold rndNat
  simp only [Nat.zero_max, Nat.sub_zero]
  refine (Nat.min_le_left _ _).trans ?_
  rcases Nat.eq_zero_or_pos n with rfl | hp
  · rw [rdiv_dvd (Nat.two_pow_pos _) (by simp)]
    exact Nat.zero_le _
  have hlog : n.log2 ≤ M.log2 := (Nat.le_log2 (by omega)).2 ((log2_bounds hp.ne').1.trans h)
  have hdvd : 2 ^ (n.log2 - f.frac) ∣ M := (Nat.pow_dvd_pow 2 (by omega)).trans (short_dvd hM)
  have hd := Nat.two_pow_pos (n.log2 - f.frac)
  generalize 2 ^ (n.log2 - f.frac) = d at *
  obtain ⟨c, rfl⟩ := hdvd
  rw [Nat.mul_comm d c]
  refine Nat.mul_le_mul_right d ?_
  have h0 := Nat.div_add_mod n d
  have hq : n / d ≤ c := by
    rw [Nat.div_le_iff_le_mul_add_pred hd]
    omega
  unfold rdiv
  split
  · exact hq
  · rename_i hne
    by_contra hcon
    have : n / d = c := by omega
    rw [this] at h0
    omega

/-- Rounding does not go below a number with few digits. -/
theorem le_rndNat {f : Fmt} {n M : Nat} (h : M ≤ n) (hM : Short f.frac M) (ht : M ≤ 2 ^ f.top) : M ≤ rndNat f 0 n := by
  obtain ⟨-, h2⟩ := rdiv_short f.frac n
  unfold rndNat
  simp only [Nat.zero_max, Nat.sub_zero]
  refine Nat.le_min.2 ⟨?_, ht⟩
  rcases Nat.lt_or_ge n.log2 f.frac with hl | hl
  · have e0 : n.log2 - f.frac = 0 := by omega
    rw [e0, rdiv_dvd (by norm_num) (by simp)]
    exact h
  rcases Nat.eq_zero_or_pos n with rfl | hp
  · omega
  rcases Nat.eq_zero_or_pos M with rfl | hMp
  · exact Nat.zero_le _
  -- either `M` is a multiple of the unit, or below the smallest number with the digits of `n`
  obtain ⟨b1, -⟩ := log2_bounds hp.ne'
  have p1 : 2 ^ n.log2 = 2 ^ f.frac * 2 ^ (n.log2 - f.frac) := by rw [← Nat.pow_add]; congr 1; omega
  obtain ⟨c, hcd, hcM⟩ : ∃ c, c * 2 ^ (n.log2 - f.frac) ≤ n ∧ M ≤ c * 2 ^ (n.log2 - f.frac) := by
    rcases Nat.lt_or_ge M.log2 n.log2 with hlt | hge
    · refine ⟨2 ^ f.frac, by rw [← p1]; exact b1, ?_⟩
      rw [← p1]
      exact (log2_bounds hMp.ne').2.le.trans (Nat.pow_le_pow_right (by omega) hlt)
    · have hdvd : 2 ^ (n.log2 - f.frac) ∣ M := (Nat.pow_dvd_pow 2 (by omega)).trans (short_dvd hM)
      obtain ⟨c, hc⟩ := hdvd
      exact ⟨c, by rw [Nat.mul_comm, ← hc]; exact h, by rw [Nat.mul_comm, ← hc]⟩
  have hd := Nat.two_pow_pos (n.log2 - f.frac)
  generalize 2 ^ (n.log2 - f.frac) = d at *
  refine hcM.trans (Nat.mul_le_mul_right d ?_)
  have : c ≤ n / d := (Nat.le_div_iff_mul_le hd).2 hcd
  unfold rdiv
  split <;> omega

theorem rnd_le {f : Fmt} {x M : Int} (h : x ≤ M) (hM : Finite f M) : rnd f 0 x ≤ M := by
  obtain ⟨h1, h2⟩ := (finite_iff f M).1 hM
  unfold rnd
  split
  · rename_i hneg
    rcases lt_or_ge M 0 with hm | hm
    · have := le_rndNat (f := f) (n := x.natAbs) (M := M.natAbs) (by omega) h1 h2.le
      omega
    · omega
  · have := rndNat_le (f := f) (n := x.natAbs) (M := M.natAbs) (by omega) h1
    omega

theorem rnd_neg (f : Fmt) (x : Int) : rnd f 0 (-x) = -rnd f 0 x := by
  have h0 : rndNat f 0 0 = 0 := by
    unfold rndNat
    simp [rdiv]
  unfold rnd
  rw [Int.natAbs_neg]
  rcases lt_trichotomy x 0 with h | rfl | h
  · rw [if_neg (by omega), if_pos h, neg_neg]
  · simp [h0]
  · rw [if_pos (by omega), if_neg (by omega)]

theorem finite_neg {f : Fmt} {x : Int} (h : Finite f x) : Finite f (-x) := by
  rw [finite_iff] at *
  rwa [Int.natAbs_neg]

theorem le_rnd {f : Fmt} {x M : Int} (h : M ≤ x) (hM : Finite f M) : M ≤ rnd f 0 x := by
  have := rnd_le (f := f) (x := -x) (M := -M) (by omega) (finite_neg hM)
  rw [rnd_neg] at this
  omega

/-- The error of rounding below 2^(digits + k) is at most half of 2^k. -/
theorem rnd_error {f : Fmt} {k : Nat} {x : Int} (h : x.natAbs < 2 ^ (f.frac + 1) * 2 ^ k) (ht : (rnd f 0 x).natAbs < 2 ^ f.top) : 2 * (rnd f 0 x - x).natAbs ≤ 2 ^ k := by
  have hn : (rnd f 0 x).natAbs = rndNat f 0 x.natAbs := by
    unfold rnd
    split
    · rw [Int.natAbs_neg, Int.natAbs_natCast]
    · rw [Int.natAbs_natCast]
  have hr : rndNat f 0 x.natAbs = rdiv x.natAbs (2 ^ (x.natAbs.log2 - f.frac)) * 2 ^ (x.natAbs.log2 - f.frac) := by
    rw [hn] at ht
    unfold rndNat at ht ⊢
    simp only [Nat.zero_max, Nat.sub_zero] at ht ⊢
    omega
  have hle : 2 ^ (x.natAbs.log2 - f.frac) ≤ 2 ^ k := by
    rcases Nat.eq_zero_or_pos x.natAbs with h0 | hp
    · rw [h0]; simp [Nat.one_le_two_pow]
    · refine Nat.pow_le_pow_right (by omega) ?_
      rw [← Nat.pow_add] at h
      have := (Nat.log2_lt hp.ne').2 h
      omega
  have hd := Nat.two_pow_pos (x.natAbs.log2 - f.frac)
  have herr : 2 * ((rndNat f 0 x.natAbs : Int) - x.natAbs).natAbs ≤ 2 ^ (x.natAbs.log2 - f.frac) := by
    rw [hr]
    generalize x.natAbs = n at *
    generalize 2 ^ (n.log2 - f.frac) = d at *
    have h0 := Nat.div_add_mod n d
    have hm := Nat.mod_lt n hd
    have hs : (n / d + 1) * d = n / d * d + d := Nat.succ_mul _ d
    rw [Nat.mul_comm] at h0
    unfold rdiv
    split
    · generalize n / d * d = a at *
      omega
    · rw [hs]
      generalize n / d * d = a at *
      omega
  unfold rnd
  split <;> omega

/-- Less than half of the last digit is lost. -/
theorem rnd_stuck {f : Fmt} {k : Nat} {x s : Int} (hx : LastDigit f k x) (hf : Finite f x) (h0 : 0 ≤ s)
    (hs : 2 * s < 2 ^ k ∨ (2 * s = 2 ^ k ∧ (2 ^ (k + 1) : Int) ∣ x)) : rnd f 0 (x + s) = x := by
  obtain ⟨c, rfl, c1, c2⟩ := hx
  obtain ⟨c, rfl⟩ : ∃ n : Nat, c = n := ⟨c.toNat, by have : (0 : Int) < 2 ^ f.frac := by positivity
                                                     omega⟩
  obtain ⟨s, rfl⟩ : ∃ n : Nat, s = n := ⟨s.toNat, by omega⟩
  have c1 : 2 ^ f.frac ≤ c := by exact_mod_cast c1
  have c2 : c < 2 ^ (f.frac + 1) := by exact_mod_cast c2
  have hs : 2 * s < 2 ^ k ∨ (2 * s = 2 ^ k ∧ c % 2 = 0) := by
    rcases hs with h | ⟨h, hd⟩
    · exact .inl (by exact_mod_cast h)
    · refine .inr ⟨by exact_mod_cast h, ?_⟩
      have hd : 2 ^ (k + 1) ∣ c * 2 ^ k := by exact_mod_cast hd
      rw [Nat.pow_succ, Nat.mul_comm (2 ^ k) 2] at hd
      exact Nat.mod_eq_zero_of_dvd (Nat.dvd_of_mul_dvd_mul_right (Nat.two_pow_pos k) hd)
  have hp := Nat.two_pow_pos k
  have hsk : s < 2 ^ k := by omega
  have hlt : c * 2 ^ k < 2 ^ f.top := by
    have := ((finite_iff f _).1 hf).2
    rwa [Int.natAbs_mul, Int.natAbs_pow, Int.natAbs_natCast] at this
  have hne : c * 2 ^ k + s ≠ 0 := by
    have : 0 < c := (Nat.two_pow_pos _).trans_le c1
    have := Nat.mul_pos this hp
    omega
  have hlog : (c * 2 ^ k + s).log2 = f.frac + k := by
    refine le_antisymm ?_ ?_
    · have : (c * 2 ^ k + s).log2 < f.frac + 1 + k := by
        rw [Nat.log2_lt hne, Nat.pow_add]
        calc c * 2 ^ k + s < (c + 1) * 2 ^ k := by rw [Nat.succ_mul]; omega
          _ ≤ _ := Nat.mul_le_mul_right _ c2
      omega
    · rw [Nat.le_log2 hne, Nat.pow_add]
      exact (Nat.mul_le_mul_right _ c1).trans (Nat.le_add_right _ _)
  have key : rndNat f 0 (c * 2 ^ k + s) = c * 2 ^ k := by
    unfold rndNat
    simp only [Nat.zero_max, Nat.sub_zero]
    rw [hlog, Nat.add_sub_cancel_left]
    have e1 : (c * 2 ^ k + s) % 2 ^ k = s := by rw [Nat.add_comm, Nat.add_mul_mod_self_right, Nat.mod_eq_of_lt hsk]
    have e2 : (c * 2 ^ k + s) / 2 ^ k = c := by rw [Nat.add_comm, Nat.add_mul_div_right _ _ hp, Nat.div_eq_of_lt hsk, Nat.zero_add]
    unfold rdiv
    rw [e1, e2, if_pos hs]
    exact Nat.min_eq_left hlt.le
  have e3 : ((c : Int) * 2 ^ k + s) = ((c * 2 ^ k + s : Nat) : Int) := by push_cast; rfl
  rw [e3]
  unfold rnd
  rw [if_neg (by omega), Int.natAbs_natCast, key]
  push_cast
  rfl

end Libube.FloatRange

import Verif.Props.FloatRound
import Mathlib.Algebra.Order.Ring.Abs

/-! # Arithmetic on floating point numbers and their order (C181) -/

namespace Libube.FloatRange

open FloatRangeSpec

theorem largest_pos (f : Fmt) : 0 < largest f + inf f := by cases f <;> decide +kernel

theorem inf_pos (f : Fmt) : 0 < inf f := by rw [inf_eq]; exact_mod_cast Nat.two_pow_pos _

theorem finite_abs {f : Fmt} {x : Int} (h : Finite f x) : |x| < inf f := by
  have := finite_lt h
  rw [inf_eq, Int.abs_eq_natAbs]
  exact_mod_cast this

theorem lt_finite (f : Fmt) (x y : Int) : lt (.flt f (some x)) (.flt f (some y)) = decide (x < y) := by
  simp [lt, Ieee.lt, Num.code]

theorem rounded_bound {f : Fmt} {p q r : Int} (h : Rounded f p q r) : |r| ≤ inf f := by
  have hi := inf_pos f
  rcases Int.lt_or_le (2 * |p|) ((largest f + inf f) * q) with g | g
  · exact (finite_abs (h.2 g).1).le
  · rw [h.1 g, abs_le]
    rcases Int.sign_trichotomy p with e | e | e <;> rw [e] <;> constructor <;> omega

/-- Rounding keeps the order. -/
theorem rounded_mono {f : Fmt} {p p' q r r' : Int} (hq : 0 < q) (h : Rounded f p q r) (h' : Rounded f p' q r') (hp : p ≤ p') : r ≤ r' := by
  have hB : 0 < (largest f + inf f) * q := Int.mul_pos (largest_pos f) hq
  have hi := inf_pos f
  have b := abs_le.1 (rounded_bound h)
  have b' := abs_le.1 (rounded_bound h')
  have ep := Int.abs_eq_natAbs p
  have ep' := Int.abs_eq_natAbs p'
  rcases Int.lt_or_le (2 * |p|) ((largest f + inf f) * q) with g | g
  · rcases Int.lt_or_le (2 * |p'|) ((largest f + inf f) * q) with g' | g'
    · obtain ⟨h1, h2⟩ := h.2 g
      obtain ⟨h3, h4⟩ := h'.2 g'
      by_contra hlt
      rw [not_le] at hlt
      have hs : r' * q < r * q := Int.mul_lt_mul_of_pos_right hlt hq
      have c := h2 r' h3 (by omega)
      have c' := h4 r h1 (by omega)
      simp only [Int.abs_eq_natAbs] at c c'
      have d := c.elim Int.le_of_lt fun c => c.1.le
      have d' := c'.elim Int.le_of_lt fun c => c.1.le
      have t1 : ∃ k, r = 2 * k * (r - r') := by
        rcases c with c | ⟨-, c⟩
        · exfalso; clear c'; omega
        · exact c
      have t2 : ∃ k, r' = 2 * k * (r' - r) := by
        rcases c' with c' | ⟨-, c'⟩
        · exfalso; clear c; omega
        · exact c'
      obtain ⟨k, hk⟩ := t1
      obtain ⟨l, hl⟩ := t2
      have e : (r - r') * (2 * (k + l) - 1) = 0 := by linear_combination -hk + hl
      rcases mul_eq_zero.1 e with e | e <;> omega
    · rcases Int.lt_or_le 0 p' with s | s
      · rw [h'.1 g', Int.sign_eq_one_of_pos s]
        omega
      · omega
  · rcases Int.lt_or_le 0 p with s | s
    · rw [h'.1 (by omega), Int.sign_eq_one_of_pos (by omega)]
      omega
    · rw [h.1 g, Int.sign_eq_neg_one_of_neg (by omega)]
      omega

theorem rounded_unique {f : Fmt} {p q r r' : Int} (hq : 0 < q) (h : Rounded f p q r) (h' : Rounded f p q r') : r = r' :=
  Int.le_antisymm (rounded_mono hq h h' (Int.le_refl _)) (rounded_mono hq h' h (Int.le_refl _))

theorem rounded_exact {f : Fmt} {x q : Int} (hq : 0 < q) (h : Finite f x) : Rounded f (x * q) q x := by
  have h1 : 2 * |x| < largest f + inf f := by
    by_contra hc
    have h2 := (rounded_self h).1 (by omega)
    have h3 := finite_abs h
    have hp := largest_pos f
    have ea := Int.abs_eq_natAbs x
    rcases Int.lt_trichotomy x 0 with s | s | s
    · rw [Int.sign_eq_neg_one_of_neg s] at h2; omega
    · subst s; simp at hc; omega
    · rw [Int.sign_eq_one_of_pos s] at h2; omega
  have h2 : 2 * |x * q| < (largest f + inf f) * q := by
    rw [abs_mul, abs_of_pos hq, ← mul_assoc]
    exact Int.mul_lt_mul_of_pos_right h1 hq
  refine ⟨fun g => absurd h2 (not_lt.2 g), fun _ => ⟨h, fun z hz hzx => .inl ?_⟩⟩
  rw [sub_self, abs_zero, ← sub_mul, abs_pos]
  exact mul_ne_zero (by omega) hq.ne'

theorem one_pos' (f : Fmt) : 0 < one f := by rw [one_eq]; exact Int.pow_pos (by decide)

/-- C181: adding the same number keeps the order. -/
theorem sum_keeps_order (f : Fmt) (x y z : Int) (hx : Finite f x) (hy : Finite f y) (hz : Finite f z) (h : lt (.flt f (some y)) (.flt f (some x)) = false) :
    ∃ a b, add (.flt f (some x)) (.flt f (some z)) = .ok a ∧ add (.flt f (some y)) (.flt f (some z)) = .ok b ∧ lt b a = false := by
  obtain ⟨r, e, g⟩ := sum_rounded f x z hx hz
  obtain ⟨r', e', g'⟩ := sum_rounded f y z hy hz
  refine ⟨_, _, e, e', ?_⟩
  rw [lt_finite] at h ⊢
  have := rounded_mono (by decide) g g' (by simp at h; omega)
  simpa using this

/-- C181: subtracting the same number keeps the order, and subtracting from the same number reverses it. -/
theorem difference_keeps_order (f : Fmt) (x y z : Int) (hx : Finite f x) (hy : Finite f y) (hz : Finite f z) (h : lt (.flt f (some y)) (.flt f (some x)) = false) :
    (∃ a b, sub (.flt f (some x)) (.flt f (some z)) = .ok a ∧ sub (.flt f (some y)) (.flt f (some z)) = .ok b ∧ lt b a = false) ∧
    ∃ a b, sub (.flt f (some z)) (.flt f (some x)) = .ok a ∧ sub (.flt f (some z)) (.flt f (some y)) = .ok b ∧ lt a b = false := by
  rw [lt_finite] at h
  simp at h
  constructor
  · obtain ⟨r, e, g⟩ := difference_rounded f x z hx hz
    obtain ⟨r', e', g'⟩ := difference_rounded f y z hy hz
    refine ⟨_, _, e, e', ?_⟩
    rw [lt_finite]
    simpa using rounded_mono (by decide) g g' (by omega)
  · obtain ⟨r, e, g⟩ := difference_rounded f z x hz hx
    obtain ⟨r', e', g'⟩ := difference_rounded f z y hz hy
    refine ⟨_, _, e, e', ?_⟩
    rw [lt_finite]
    simpa using rounded_mono (by decide) g' g (by omega)

/-- C181: multiplying by the same number keeps the order if the number is not negative, and reverses it if it is not positive. -/
theorem product_keeps_order (f : Fmt) (x y z : Int) (hx : Finite f x) (hy : Finite f y) (hz : Finite f z) (h : lt (.flt f (some y)) (.flt f (some x)) = false) :
    (lt (.flt f (some z)) (.flt f (some 0)) = false → lt (mulNum f (some y) (.flt f (some z))) (mulNum f (some x) (.flt f (some z))) = false) ∧
    (lt (.flt f (some 0)) (.flt f (some z)) = false → lt (mulNum f (some x) (.flt f (some z))) (mulNum f (some y) (.flt f (some z))) = false) := by
  obtain ⟨r, e, g⟩ := product_rounded f x z hx hz
  obtain ⟨r', e', g'⟩ := product_rounded f y z hy hz
  rw [e, e']
  simp only [lt_finite, decide_eq_false_iff_not, not_lt] at h ⊢
  exact ⟨fun h0 => rounded_mono (one_pos' f) g g' (Int.mul_le_mul_of_nonneg_right h h0),
    fun h0 => rounded_mono (one_pos' f) g' g (Int.mul_le_mul_of_nonpos_right h h0)⟩

/-- C181: so does dividing by it. -/
theorem quotient_keeps_order (f : Fmt) (x y z : Int) (hx : Finite f x) (hy : Finite f y) (hz : Finite f z) (h : lt (.flt f (some y)) (.flt f (some x)) = false) (h0 : z ≠ 0) :
    ∃ a b, divNum f (some x) (.flt f (some z)) = .ok a ∧ divNum f (some y) (.flt f (some z)) = .ok b ∧
      (lt (.flt f (some z)) (.flt f (some 0)) = false → lt b a = false) ∧ (lt (.flt f (some 0)) (.flt f (some z)) = false → lt a b = false) := by
  obtain ⟨r, e, g⟩ := quotient_rounded f x z hx hz h0
  obtain ⟨r', e', g'⟩ := quotient_rounded f y z hy hz h0
  refine ⟨_, _, e, e', ?_⟩
  simp only [lt_finite, decide_eq_false_iff_not, not_lt] at h ⊢
  have h1 := one_pos' f
  refine ⟨fun hs => rounded_mono (abs_pos.2 h0) g g' ?_, fun hs => rounded_mono (abs_pos.2 h0) g' g ?_⟩
  · rw [Int.sign_eq_one_of_pos (by omega), Int.mul_one, Int.mul_one]
    exact Int.mul_le_mul_of_nonneg_right h h1.le
  · rw [Int.sign_eq_neg_one_of_neg (by omega)]
    exact Int.mul_le_mul_of_nonneg_right (by omega) h1.le

/-- C181: a difference is zero only if the numbers are equal. -/
theorem difference_zero_iff (f : Fmt) (x y : Int) (hx : Finite f x) (hy : Finite f y) :
    sub (.flt f (some x)) (.flt f (some y)) = .ok (.flt f (some 0)) ↔ x = y := by
  obtain ⟨r, e, g⟩ := difference_rounded f x y hx hy
  have f0 : Finite f 0 := (finite_iff f 0).2 ⟨⟨0, 0, rfl, Nat.two_pow_pos _⟩, Nat.two_pow_pos _⟩
  have f1 : Finite f 1 := (finite_iff f 1).2 ⟨⟨1, 0, rfl, Nat.one_lt_two_pow (by omega)⟩, Nat.one_lt_two_pow (by cases f <;> decide)⟩
  rw [e]
  constructor
  · intro h
    obtain rfl : r = 0 := by simpa using h
    rcases Int.lt_trichotomy (x - y) 0 with s | s | s
    · have := rounded_mono (by decide) g (rounded_self (finite_neg f1)) (by omega)
      omega
    · omega
    · have := rounded_mono (by decide) (rounded_self f1) g (by omega)
      omega
  · rintro rfl
    rw [sub_self] at g
    rw [rounded_unique (by decide) g (rounded_self f0)]

theorem short_sub {m : Nat} {x y : Int} (hx : Short m x.natAbs) (hy : Short m y.natAbs) (h1 : 0 ≤ x) (h2 : x ≤ y) (h3 : y ≤ 2 * x) : Short m (x - y).natAbs := by
  obtain ⟨a, i, ea, ha⟩ := hx
  obtain ⟨b, j, eb, hb⟩ := hy
  rcases Nat.le_total i j with h | h
  · obtain ⟨d, rfl⟩ := Nat.exists_eq_add_of_le h
    refine ⟨b * 2 ^ d - a, i, ?_, ?_⟩
    · rw [Nat.sub_mul, Nat.mul_assoc, ← Nat.pow_add, Nat.add_comm d i, ← eb, ← ea]
      omega
    · have : (b * 2 ^ d - a) * 2 ^ i ≤ a * 2 ^ i := by
        rw [Nat.sub_mul, Nat.mul_assoc, ← Nat.pow_add, Nat.add_comm d i, ← eb, ← ea]
        omega
      have := Nat.le_of_mul_le_mul_right this (Nat.two_pow_pos i)
      omega
  · obtain ⟨d, rfl⟩ := Nat.exists_eq_add_of_le h
    refine ⟨b - a * 2 ^ d, j, ?_, by omega⟩
    rw [Nat.sub_mul, Nat.mul_assoc, ← Nat.pow_add, Nat.add_comm d j, ← eb, ← ea]
    omega

/-- C181: the difference of two numbers neither of which is more than twice the other is exact. -/
theorem difference_exact (f : Fmt) (x y : Int) (hx : Finite f x) (hy : Finite f y) (h1 : y ≤ 2 * x) (h2 : x ≤ 2 * y) :
    sub (.flt f (some x)) (.flt f (some y)) = .ok (.flt f (some (x - y))) := by
  obtain ⟨r, e, g⟩ := difference_rounded f x y hx hy
  have hf : Finite f (x - y) := by
    obtain ⟨a1, a2⟩ := (finite_iff f x).1 hx
    obtain ⟨b1, b2⟩ := (finite_iff f y).1 hy
    refine (finite_iff f _).2 ⟨?_, by omega⟩
    rcases Int.le_total x y with h | h
    · exact short_sub a1 b1 (by omega) h h1
    · rw [← Int.natAbs_neg, Int.neg_sub]
      exact short_sub b1 a1 (by omega) h h2
  rw [e, rounded_unique (by decide) g (rounded_self hf)]

/-- C181: zero and one are neutral, and a number divided by itself is one. -/
theorem neutral (f : Fmt) (x : Int) (hx : Finite f x) :
    add (.flt f (some x)) (.flt f (some 0)) = .ok (.flt f (some x)) ∧ sub (.flt f (some x)) (.flt f (some 0)) = .ok (.flt f (some x)) ∧
    mulNum f (some x) (.flt f (some (one f))) = .flt f (some x) ∧ divNum f (some x) (.flt f (some (one f))) = .ok (.flt f (some x)) ∧
    (x ≠ 0 → divNum f (some x) (.flt f (some x)) = .ok (.flt f (some (one f)))) := by
  have f0 : Finite f 0 := (finite_iff f 0).2 ⟨⟨0, 0, rfl, Nat.two_pow_pos _⟩, Nat.two_pow_pos _⟩
  have f1 : Finite f (one f) := by
    cases f
    · exact ⟨0x3F800000, by decide +kernel, by decide +kernel⟩
    · exact ⟨0x3FF0000000000000, by decide +kernel, by decide +kernel⟩
  have h1 := one_pos' f
  refine ⟨?_, ?_, ?_, ?_, fun h0 => ?_⟩
  · obtain ⟨r, e, g⟩ := sum_rounded f x 0 hx f0
    rw [Int.add_zero] at g
    rw [e, rounded_unique (by decide) g (rounded_self hx)]
  · obtain ⟨r, e, g⟩ := difference_rounded f x 0 hx f0
    rw [Int.sub_zero] at g
    rw [e, rounded_unique (by decide) g (rounded_self hx)]
  · obtain ⟨r, e, g⟩ := product_rounded f x (one f) hx f1
    rw [e, rounded_unique h1 g (rounded_exact h1 hx)]
  · obtain ⟨r, e, g⟩ := quotient_rounded f x (one f) hx f1 h1.ne'
    rw [Int.sign_eq_one_of_pos h1, Int.mul_one, abs_of_pos h1] at g
    rw [e, rounded_unique h1 g (rounded_exact h1 hx)]
  · obtain ⟨r, e, g⟩ := quotient_rounded f x x hx hx h0
    rw [Int.mul_sign_self, ← Int.abs_eq_natAbs, Int.mul_comm] at g
    rw [e, rounded_unique (abs_pos.2 h0) g (rounded_exact (abs_pos.2 h0) f1)]

/-- The order is kept, but numbers that differ may have the same sum: 2^24 and 2^24 + 2, with 2^30 added. -/
theorem sum_not_strict : lt (.flt .float (some (2 ^ 173))) (.flt .float (some (2 ^ 173 + 2 ^ 150))) = true ∧
    add (.flt .float (some (2 ^ 173))) (.flt .float (some (2 ^ 179))) = add (.flt .float (some (2 ^ 173 + 2 ^ 150))) (.flt .float (some (2 ^ 179))) := by
  decide +kernel

/-- The numbers 2^24, 2^24 + 2, 2^30 and -1: the hypotheses of the theorems above are met. -/
example : Finite .float (2 ^ 173) ∧ Finite .float (2 ^ 173 + 2 ^ 150) ∧ Finite .float (2 ^ 179) ∧ Finite .float (-2 ^ 149) ∧
    lt (.flt .float (some (2 ^ 173 + 2 ^ 150))) (.flt .float (some (2 ^ 173))) = false ∧ lt (.flt .float (some (2 ^ 179))) (.flt .float (some 0)) = false ∧
    lt (.flt .float (some 0)) (.flt .float (some (-2 ^ 149))) = false ∧ (2 ^ 173 + 2 ^ 150 : Int) ≤ 2 * 2 ^ 173 ∧ (2 ^ 173 : Int) ≤ 2 * (2 ^ 173 + 2 ^ 150) :=
  ⟨⟨0x4B800000, by decide +kernel, by decide +kernel⟩, ⟨0x4B800001, by decide +kernel, by decide +kernel⟩,
    ⟨0x4E800000, by decide +kernel, by decide +kernel⟩, ⟨0xBF800000, by decide +kernel, by decide +kernel⟩, by decide +kernel⟩

end Libube.FloatRange

#print axioms Libube.FloatRange.sum_keeps_order
#print axioms Libube.FloatRange.difference_keeps_order
#print axioms Libube.FloatRange.product_keeps_order
#print axioms Libube.FloatRange.quotient_keeps_order
#print axioms Libube.FloatRange.difference_zero_iff
#print axioms Libube.FloatRange.difference_exact
#print axioms Libube.FloatRange.neutral
#print axioms Libube.FloatRange.sum_not_strict

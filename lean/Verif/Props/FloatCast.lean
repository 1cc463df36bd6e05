import Verif.Props.FloatOrder

/-! # Conversion to floating point types (C182) -/

namespace Libube.FloatRange

open FloatRangeSpec

theorem rounded_scale {f : Fmt} {p q r k : Int} (hk : 0 < k) (h : Rounded f p q r) : Rounded f (p * k) (q * k) r := by
  have e : ∀ z : Int, |z * (q * k) - p * k| = |z * q - p| * k := fun z => by
    rw [show z * (q * k) - p * k = (z * q - p) * k by ring, abs_mul, abs_of_pos hk]
  have ep : 2 * |p * k| = (2 * |p|) * k := by rw [abs_mul, abs_of_pos hk]; ring
  have eB : (largest f + inf f) * (q * k) = (largest f + inf f) * q * k := by ring
  constructor
  · intro g
    rw [ep, eB] at g
    rw [h.1 (Int.le_of_mul_le_mul_right g hk), Int.sign_mul, Int.sign_eq_one_of_pos hk, Int.mul_one]
  · intro g
    rw [ep, eB] at g
    obtain ⟨h1, h2⟩ := h.2 (Int.lt_of_mul_lt_mul_right g hk.le)
    refine ⟨h1, fun z hz hzr => ?_⟩
    rw [e, e]
    rcases h2 z hz hzr with h3 | ⟨h3, h4⟩
    · exact .inl (Int.mul_lt_mul_of_pos_right h3 hk)
    · exact .inr ⟨by rw [h3], h4⟩

theorem exactly_pos {f : Fmt} {b : Num} {p q : Int} (h : Exactly f b p q) : 0 < q := by
  have h2 : ∀ n : Nat, (0 : Int) < 2 ^ n := fun n => Int.pow_pos (by decide)
  cases h with
  | narrow _ _ _ => exact h2 925
  | _ => exact Int.one_pos

/-- C182: a number of another type is converted to the closest one. -/
theorem cast_closest (f : Fmt) (b : Num) (p q : Int) (h : Exactly f b p q) : ∃ y, castF f b = some y ∧ Rounded f p q y := cast_rounded h

/-- C182: conversion keeps the order, also between numbers of different types. -/
theorem cast_keeps_order (f : Fmt) (b b' : Num) (p q p' q' : Int) (h : Exactly f b p q) (h' : Exactly f b' p' q') (hp : p * q' ≤ p' * q) :
    ∃ y y', castF f b = some y ∧ castF f b' = some y' ∧ y ≤ y' := by
  obtain ⟨y, e, g⟩ := cast_rounded h
  obtain ⟨y', e', g'⟩ := cast_rounded h'
  have hq := exactly_pos h
  have hq' := exactly_pos h'
  have g1 := rounded_scale hq' g
  have g2 := rounded_scale hq g'
  rw [Int.mul_comm q' q] at g2
  exact ⟨y, y', e, e', rounded_mono (Int.mul_pos hq hq') g1 g2 hp⟩

/-- C182: a `float` survives conversion to `double` and back, infinity and what is not a number included. -/
theorem float_double_float (v : Option Int) (h : Held .float v) :
    Held .double (castF .double (.flt .float v)) ∧ castF .float (.flt .double (castF .double (.flt .float v))) = v := by
  match v with
  | none => exact ⟨⟨0x7FF8000000000000, by decide +kernel⟩, rfl⟩
  | some x =>
    obtain ⟨b, hb⟩ := h
    by_cases hi : x.natAbs = 2 ^ 277
    · rcases Int.natAbs_eq_iff.1 hi with e | e
      · push_cast at e
        subst e
        exact ⟨⟨0x7FF0000000000000, by decide +kernel⟩, by decide +kernel⟩
      · push_cast at e
        subst e
        exact ⟨⟨0xFFF0000000000000, by decide +kernel⟩, by decide +kernel⟩
    · have hf : Finite .float x := ⟨b, hb, hi⟩
      have e : castF .double (.flt .float (some x)) = some (x * 2 ^ 925) := by
        have := finite_lt hf
        rw [castF, Option.map_some, if_neg (by omega)]
        rfl
      rw [e]
      obtain ⟨c, hc, -⟩ := finite_widen hf
      exact ⟨⟨c, hc⟩, congrArg some (rnd_unit_exact (k0 := 925) hf)⟩

theorem int_exact {f : Fmt} {x : Range.Num} (h : x.v.natAbs ≤ 2 ^ (f.frac + 1)) : castF f (.int x) = some (x.v * one f) := by
  rw [castF, one_eq]
  refine congrArg some (rnd_grid (f := f) (k := f.unit) ⟨x.v, rfl, h⟩ ?_)
  rw [Int.natAbs_mul, Int.natAbs_pow]
  refine (Nat.mul_le_mul_right _ h).trans ?_
  show 2 ^ (f.frac + 1) * 2 ^ f.unit ≤ _
  rw [← Nat.pow_add]
  exact Nat.pow_le_pow_right (by omega) (by cases f <;> decide)

/-- C182: an integer of up to 24 or 53 bits survives conversion to `float` or `double` and back. -/
theorem int_float_int_partial (f : Fmt) (x : Range.Num) (hr : Range.inRange x.ty x.v = true) (h : x.v.natAbs ≤ 2 ^ (f.frac + 1)) :
    castF f (.int x) = some (x.v * one f) ∧ castI x.ty (.flt f (castF f (.int x))) = .ok x.v := by
  rw [int_exact h]
  refine ⟨rfl, ?_⟩
  have e : (x.v * one f).tdiv (2 ^ f.unit) = x.v := by
    rw [one_eq]
    exact Int.mul_tdiv_cancel _ (pow_ne_zero _ (by decide))
  rw [castI, e, if_pos hr]

/-- C182: every `int` and every character survives conversion to `double` and back. -/
theorem int_double_int (x : Range.Num) (hr : Range.inRange x.ty x.v = true) (ht : x.ty ≠ .long) :
    castF .double (.int x) = some (x.v * one .double) ∧ castI x.ty (.flt .double (castF .double (.int x))) = .ok x.v := by
  refine int_float_int_partial .double x hr ?_
  show _ ≤ 2 ^ 53
  obtain ⟨t, v⟩ := x
  cases t with
  | long => exact absurd rfl ht
  | _ =>
    simp only [Range.inRange, Range.Ty.bits, Bool.and_eq_true, decide_eq_true_eq] at hr
    norm_num at hr
    show v.natAbs ≤ _
    omega

/-- Not all integers do: 2^53 + 1 becomes 2^53, and the largest `long` and the largest `int` become numbers that do not fit. -/
theorem int_float_lost : castI .long (.flt .double (castF .double (.int ⟨.long, 2 ^ 53 + 1⟩))) = .ok (2 ^ 53) ∧
    castI .long (.flt .double (castF .double (.int ⟨.long, 2 ^ 63 - 1⟩))) = .ub .overflow ∧
    castI .int (.flt .float (castF .float (.int ⟨.int, 2 ^ 31 - 1⟩))) = .ub .overflow := by
  decide +kernel

/-- The numbers 2^24 + 1 and 2^-149, and the integers -7 and 2^24 + 1 in order: the hypotheses of the theorems above are met. -/
example : Held .float (some 1) ∧ Range.inRange .int (2 ^ 24 + 1) = true ∧ Range.inRange .long (-2 ^ 24) = true ∧ (-2 ^ 24 : Int).natAbs ≤ 2 ^ (Fmt.float.frac + 1) ∧
    Exactly .float (.int ⟨.long, -7⟩) (-7 * 2 ^ 149) 1 ∧ Exactly .float (.flt .double (some (2 ^ 1074 + 2 ^ 1044))) (2 ^ 1074 + 2 ^ 1044) (2 ^ 925) ∧
    (-7 * 2 ^ 149 : Int) * 2 ^ 925 ≤ (2 ^ 1074 + 2 ^ 1044) * 1 :=
  ⟨⟨1, by decide +kernel⟩, by decide, by decide, by decide, .int _, .narrow _ rfl ⟨0x3FF0000000400000, by decide +kernel, by decide +kernel⟩, by decide +kernel⟩

end Libube.FloatRange

#print axioms Libube.FloatRange.cast_closest
#print axioms Libube.FloatRange.cast_keeps_order
#print axioms Libube.FloatRange.float_double_float
#print axioms Libube.FloatRange.int_float_int_partial
#print axioms Libube.FloatRange.int_double_int
#print axioms Libube.FloatRange.int_float_lost

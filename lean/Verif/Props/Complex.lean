import Verif.Spec.Complex
import Verif.Model.Complex
import Verif.Props.FloatRound
import Mathlib.Algebra.Order.Ring.Abs

/-! # C179: arithmetic on single complex numbers; C176 for them -/

namespace Libube.FloatRange

open FloatRangeSpec

theorem castC_self (f : Fmt) (z : Cplx) : castC f (.cplx f z) = .ok z := by cases f <;> rfl

theorem castC_real (f : Fmt) (b : Num) : castC f (.real b) = .ok ⟨castF f b, some 0⟩ := by cases f <;> rfl

theorem mulC_some {f : Fmt} {x y : Cplx} {r s : Int} (h1 : addF f (mulF f x.re y.re) (negF (mulF f x.im y.im)) = some r)
    (h2 : addF f (mulF f x.re y.im) (mulF f x.im y.re) = some s) : mulC f x y = some ⟨some r, some s⟩ := by
  unfold mulC
  simp [h1, h2]

theorem addF_rounded {f : Fmt} {x y : Int} (hx : Finite f x) (hy : Finite f y) :
    ∃ r, addF f (some x) (some y) = some r ∧ Rounded f (x + y) 1 r := by
  refine ⟨_, addF_finite hx hy, ?_⟩
  have := rounded_rnd f 0 (x + y)
  rwa [pow_zero] at this

/-- C179: real and imaginary part of a sum are rounded from the exact ones. -/
theorem complex_sum_rounded (f : Fmt) (a b c d : Int) (ha : Finite f a) (hb : Finite f b) (hc : Finite f c) (hd : Finite f d) :
    ∃ r s, addCplx f ⟨some a, some b⟩ (.cplx f ⟨some c, some d⟩) = .ok ⟨some r, some s⟩ ∧
      Rounded f (a + c) 1 r ∧ Rounded f (b + d) 1 s := by
  obtain ⟨r, h1, h2⟩ := addF_rounded ha hc
  obtain ⟨s, h3, h4⟩ := addF_rounded hb hd
  refine ⟨r, s, ?_, h2, h4⟩
  rw [addCplx, castC_self]
  simp only [Outcome.bind_ok, addC, h1, h3]

/-- C179: so are those of a difference. -/
theorem complex_difference_rounded (f : Fmt) (a b c d : Int) (ha : Finite f a) (hb : Finite f b) (hc : Finite f c) (hd : Finite f d) :
    ∃ r s, subCplx f ⟨some a, some b⟩ (.cplx f ⟨some c, some d⟩) = .ok ⟨some r, some s⟩ ∧
      Rounded f (a - c) 1 r ∧ Rounded f (b - d) 1 s := by
  obtain ⟨r, h1, h2⟩ := addF_rounded ha (finite_neg hc)
  obtain ⟨s, h3, h4⟩ := addF_rounded hb (finite_neg hd)
  refine ⟨r, s, ?_, h2, h4⟩
  rw [subCplx, castC_self]
  simp only [Outcome.bind_ok, subC, negF, Option.map_some, h1, h3]

/-- C179: sums and products of complex numbers of the same type do not depend on the order. -/
theorem complex_commutes (f : Fmt) (x y : Cplx) :
    addCplx f x (.cplx f y) = addCplx f y (.cplx f x) ∧ mulCplx f x (.cplx f y) = mulCplx f y (.cplx f x) := by
  rw [addCplx, addCplx, mulCplx, mulCplx, castC_self, castC_self]
  simp only [Outcome.bind_ok]
  constructor
  · unfold addC
    rw [addF_comm x.re, addF_comm x.im]
  · unfold mulC
    rw [mulF_comm f y.re x.re, mulF_comm f y.im x.im, mulF_comm f y.re x.im, mulF_comm f y.im x.re, addF_comm (mulF f x.re y.im)]

theorem finite_whole {f : Fmt} {n : Int} (h : n.natAbs < 2 ^ (f.frac + 1)) : Finite f (n * one f) := by
  rw [one_eq]
  have e : (n * 2 ^ f.unit).natAbs = n.natAbs * 2 ^ f.unit := by rw [Int.natAbs_mul, Int.natAbs_pow]; rfl
  have ht : f.frac + 1 + f.unit ≤ f.top := by cases f <;> decide
  exact (finite_iff f _).2 ⟨by rw [e]; exact ⟨_, _, rfl, h⟩, by rw [e]; exact lt_shift ht h⟩

theorem mulF_whole {f : Fmt} {a c : Int} (ha : a.natAbs < 2 ^ (f.frac + 1)) (hc : c.natAbs < 2 ^ (f.frac + 1))
    (h : (a * c).natAbs < 2 ^ (f.frac + 1)) : mulF f (some (a * one f)) (some (c * one f)) = some (a * c * one f) := by
  have h1 := finite_lt (finite_whole ha)
  have h2 := finite_lt (finite_whole hc)
  rw [mulF, if_neg (by omega), show a * one f * (c * one f) = a * c * one f * one f by ring]
  congr 1
  have := rnd_unit_exact (k0 := f.unit) (finite_whole h)
  rwa [← one_eq] at this

theorem addF_whole {f : Fmt} {a c : Int} (ha : a.natAbs ≤ 2 ^ f.frac) (hc : c.natAbs ≤ 2 ^ f.frac) :
    addF f (some (a * one f)) (some (c * one f)) = some ((a + c) * one f) := by
  have hp : 2 ^ (f.frac + 1) = 2 * 2 ^ f.frac := by rw [Nat.pow_succ, Nat.mul_comm]
  have h0 := Nat.two_pow_pos f.frac
  rw [addF_finite (finite_whole (by omega)) (finite_whole (by omega)), ← Int.add_mul]
  congr 1
  rw [one_eq]
  refine rnd_grid (k := f.unit) ⟨a + c, rfl, by omega⟩ ?_
  have e : ((a + c) * 2 ^ f.unit).natAbs = (a + c).natAbs * 2 ^ f.unit := by rw [Int.natAbs_mul, Int.natAbs_pow]; rfl
  have ht : f.frac + 2 + f.unit ≤ f.top := by cases f <;> decide
  rw [e]
  refine (lt_shift (s := f.frac + 2) ht ?_).le
  have : 2 ^ (f.frac + 2) = 4 * 2 ^ f.frac := by rw [Nat.pow_add, Nat.mul_comm]
  omega

theorem small_mul {f : Fmt} {a c : Int} (ha : |a| ≤ small f) (hc : |c| ≤ small f) : (a * c).natAbs ≤ 2 ^ f.frac := by
  have hs : small f * small f ≤ (2 ^ f.frac : Nat) := by cases f <;> decide +kernel
  have h0 : (0 : Int) ≤ small f := le_trans (abs_nonneg a) ha
  have h : |a| * |c| ≤ small f * small f := mul_le_mul ha hc (abs_nonneg c) h0
  rw [← abs_mul, Int.abs_eq_natAbs] at h
  exact_mod_cast h.trans hs

theorem small_lt {f : Fmt} {a : Int} (ha : |a| ≤ small f) : a.natAbs < 2 ^ (f.frac + 1) := by
  have hs : small f < (2 ^ (f.frac + 1) : Nat) := by cases f <;> decide +kernel
  rw [Int.abs_eq_natAbs] at ha
  exact_mod_cast lt_of_le_of_lt ha hs

/-- C179 for products of complex numbers with whole parts that are not too large: these are exact.  Missing: other parts, for
    which both products and their sum are rounded. -/
theorem complex_product_exact_partial (f : Fmt) (a b c d : Int) (ha : |a| ≤ small f) (hb : |b| ≤ small f) (hc : |c| ≤ small f)
    (hd : |d| ≤ small f) :
    mulCplx f (gauss f a b) (.cplx f (gauss f c d)) = .ok (some (gauss f (a * c - b * d) (a * d + b * c))) := by
  have hlt : ∀ {n : Int}, n.natAbs ≤ 2 ^ f.frac → n.natAbs < 2 ^ (f.frac + 1) := fun h =>
    h.trans_lt (Nat.pow_lt_pow_right (by omega) (by omega))
  have m1 := small_mul ha hc
  have m2 := small_mul hb hd
  have m3 := small_mul ha hd
  have m4 := small_mul hb hc
  rw [mulCplx, castC_self, Outcome.bind_ok]
  congr 1
  refine mulC_some ?_ ?_
  · show addF f (mulF f (some (a * one f)) (some (c * one f))) (negF (mulF f (some (b * one f)) (some (d * one f)))) = _
    rw [mulF_whole (small_lt ha) (small_lt hc) (hlt m1), mulF_whole (small_lt hb) (small_lt hd) (hlt m2),
      show negF (some (b * d * one f)) = some (-(b * d) * one f) by rw [negF, Option.map_some, Int.neg_mul],
      addF_whole m1 (by rw [Int.natAbs_neg]; exact m2), Int.sub_eq_add_neg]
  · show addF f (mulF f (some (a * one f)) (some (d * one f))) (mulF f (some (b * one f)) (some (c * one f))) = _
    rw [mulF_whole (small_lt ha) (small_lt hd) (hlt m3), mulF_whole (small_lt hb) (small_lt hc) (hlt m4), addF_whole m3 m4]

/-- (2 + 3i)(4 - i) = 11 + 10i. -/
example : |(3 : Int)| ≤ small .float ∧ |(-1 : Int)| ≤ small .float ∧ Finite .float (3 * one .float) ∧
    mulCplx .float (gauss .float 2 3) (.cplx .float (gauss .float 4 (-1))) = .ok (some (gauss .float 11 10)) :=
  ⟨by decide, by decide, ⟨0x40400000, by decide +kernel, by decide +kernel⟩, by decide +kernel⟩

/-- Beyond that products are not closest: the real part of (4097 + 4096i)(4097 + 4098i) as cfloat is 0 rather than 1. -/
theorem complex_product_not_closest :
    mulCplx .float (gauss .float 4097 4096) (.cplx .float (gauss .float 4097 4098)) =
      .ok (some (gauss .float 0 (4097 * 4098 + 4096 * 4097 - 2))) ∧ (4097 * 4097 - 4096 * 4098 : Int) = 1 := by
  decide +kernel

/-- C179 fails for different types: 1 + i is 1 for a real 1 on the left but 1 + i the other way round; a `cfloat` i added to a
    `cdouble` 1 is lost as well; and adding a `cdouble` to a `cfloat` or a real number is undefined. -/
theorem complex_order_matters :
    addReal .float (some (one .float)) (.cplx .float (gauss .float 0 1)) = .ok (some (one .float)) ∧
    addCplx .float (gauss .float 0 1) (.real (.flt .float (some (one .float)))) = .ok (gauss .float 1 1) ∧
    addCplx .double (gauss .double 1 0) (.cplx .float (gauss .float 0 1)) = .ok (gauss .double 1 0) ∧
    (∀ x z, addCplx .float x (.cplx .double z) = .ub .typePun) ∧
    (∀ f x z, addReal f x (.cplx .double z) = .ub .typePun) :=
  ⟨by decide +kernel, by decide +kernel, by decide +kernel, fun _ _ => rfl, fun _ _ _ => rfl⟩

/-- C176 for complex numbers with finite parts. -/
theorem negate_complex_partial (f : Fmt) (a b : Int) (ha : Finite f a) (hb : Finite f b) :
    negateCplx f ⟨some a, some b⟩ = .ok (some ⟨some (-a), some (-b)⟩) := by
  have hm : castF f (.int ⟨.int, -1⟩) = some (-1 * one f) := by
    rw [castF, one_eq]
    exact congrArg some (rnd_grid (f := f) (k := f.unit) ⟨-1, rfl, Nat.one_le_two_pow⟩ (by
      rw [Int.natAbs_mul, Int.natAbs_pow]
      cases f <;> exact Nat.le_of_ble_eq_true (by decide +kernel)))
  have h1 := finite_lt ha
  have h2 := finite_lt hb
  have h3 := finite_lt (finite_whole (f := f) (n := -1) (Nat.one_lt_two_pow (by omega)))
  have h0 : Finite f 0 := by
    have := finite_whole (f := f) (n := 0) (Nat.two_pow_pos _)
    rwa [Int.zero_mul] at this
  have hT := Nat.two_pow_pos f.top
  have hz : ∀ {x : Int}, x.natAbs < 2 ^ f.top → mulF f (some x) (some 0) = some 0 := by
    intro x hx
    rw [mulF, if_neg (by simp; omega), Int.mul_zero]
    have := rnd_unit_exact (k0 := f.unit) h0
    rw [Int.zero_mul] at this
    rw [this]
  have hn : ∀ {x : Int}, Finite f x → mulF f (some x) (some (-1 * one f)) = some (-x) := by
    intro x hx
    have := finite_lt hx
    rw [mulF, if_neg (by omega), show x * (-1 * one f) = -x * one f by ring, one_eq, rnd_unit_exact (finite_neg hx)]
  have ea : ∀ {x : Int}, Finite f x → rnd f 0 x = x := by
    intro x hx
    have := rnd_unit_exact (k0 := 0) hx
    rwa [pow_zero, Int.mul_one] at this
  unfold negateCplx mulCplx
  rw [castC_real, hm, Outcome.bind_ok]
  congr 1
  refine mulC_some ?_ ?_
  · show addF f (mulF f (some a) (some (-1 * one f))) (negF (mulF f (some b) (some 0))) = _
    rw [hz h2, hn ha, show negF (some 0) = some 0 from rfl, addF_finite (finite_neg ha) h0, Int.add_zero, ea (finite_neg ha)]
  · show addF f (mulF f (some a) (some 0)) (mulF f (some b) (some (-1 * one f))) = _
    rw [hz h1, hn hb, addF_finite h0 (finite_neg hb), Int.zero_add, ea (finite_neg hb)]

example : Finite .double (-(3 * one .double)) ∧ Finite .double 0 :=
  ⟨⟨0xC008000000000000, by decide +kernel, by decide +kernel⟩, ⟨0, by decide +kernel, by decide +kernel⟩⟩

/-- C176 fails for infinite parts: the negative of infinity + i has no imaginary part that is a number. -/
theorem negate_complex_infinite (f : Fmt) : negateCplx f ⟨some (inf f), some (one f)⟩ = .ok (some ⟨some (-inf f), none⟩) := by
  cases f <;> decide +kernel

end Libube.FloatRange

#print axioms Libube.FloatRange.complex_sum_rounded
#print axioms Libube.FloatRange.complex_difference_rounded
#print axioms Libube.FloatRange.complex_commutes
#print axioms Libube.FloatRange.complex_product_exact_partial
#print axioms Libube.FloatRange.complex_product_not_closest
#print axioms Libube.FloatRange.complex_order_matters
#print axioms Libube.FloatRange.negate_complex_partial
#print axioms Libube.FloatRange.negate_complex_infinite

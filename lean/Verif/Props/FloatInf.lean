import Verif.Props.FloatOrder

/-! # Arithmetic with infinity and with what is not a number (C178) -/

namespace Libube.FloatRange

open FloatRangeSpec

theorem inf_cast (f : Fmt) : (inf f).natAbs = 2 ^ f.top ∧ (-inf f).natAbs = 2 ^ f.top := by
  rw [Int.natAbs_neg, inf_eq, Int.natAbs_natCast]
  exact ⟨rfl, rfl⟩

theorem inf_abs {f : Fmt} {x : Int} (h : x = inf f ∨ x = -inf f) : x.natAbs = 2 ^ f.top := by
  rcases h with rfl | rfl
  exacts [(inf_cast f).1, (inf_cast f).2]

theorem two_top (f : Fmt) : (2 ^ f.top : Int) = inf f := by rw [inf_eq]; push_cast; rfl

/-- C178 for sums and differences with infinity `x`: it prevails over a finite number and over itself, and its sum with the opposite is not a number. -/
theorem sum_infinite (f : Fmt) (x y : Int) (hx : x = inf f ∨ x = -inf f) (hy : Finite f y) :
    add (.flt f (some x)) (.flt f (some y)) = .ok (.flt f (some x)) ∧ add (.flt f (some y)) (.flt f (some x)) = .ok (.flt f (some x)) ∧
    sub (.flt f (some x)) (.flt f (some y)) = .ok (.flt f (some x)) ∧ sub (.flt f (some y)) (.flt f (some x)) = .ok (.flt f (some (-x))) ∧
    add (.flt f (some x)) (.flt f (some x)) = .ok (.flt f (some x)) ∧ sub (.flt f (some x)) (.flt f (some (-x))) = .ok (.flt f (some x)) ∧
    add (.flt f (some x)) (.flt f (some (-x))) = .ok (.flt f none) ∧ sub (.flt f (some x)) (.flt f (some x)) = .ok (.flt f none) := by
  have h1 := inf_abs hx
  have h2 := finite_lt hy
  have h3 := Nat.two_pow_pos f.top
  have a1 : addF f (some x) (some y) = some x := by rw [addF, if_pos h1, if_neg (by omega)]
  have a2 : addF f (some x) (some (-y)) = some x := by rw [addF, if_pos h1, if_neg (by omega)]
  have a3 : addF f (some y) (some (-x)) = some (-x) := by rw [addF, if_neg (by omega), if_pos (by omega)]
  have a4 : addF f (some x) (some x) = some x := by rw [addF, if_pos h1, if_neg (by omega)]
  have a5 : addF f (some x) (some (-x)) = none := by rw [addF, if_pos h1, if_pos rfl]
  simp only [add, sub, castF_self, negF, Option.map_some, a1, a2, a3, a4, a5, neg_neg, addF_comm (some y) (some x), and_self]

/-- C178 for products with infinity `x`: infinite with the sign of the product, or not a number if the other factor is zero. -/
theorem product_infinite (f : Fmt) (x y : Int) (hx : x = inf f ∨ x = -inf f) :
    (0 < y → mulNum f (some x) (.flt f (some y)) = .flt f (some x) ∧ mulNum f (some y) (.flt f (some x)) = .flt f (some x)) ∧
    (y < 0 → mulNum f (some x) (.flt f (some y)) = .flt f (some (-x)) ∧ mulNum f (some y) (.flt f (some x)) = .flt f (some (-x))) ∧
    mulNum f (some x) (.flt f (some 0)) = .flt f none ∧ mulNum f (some 0) (.flt f (some x)) = .flt f none := by
  have h1 := inf_abs hx
  have h3 := Nat.two_pow_pos f.top
  have hi := inf_pos f
  have h0 : x ≠ 0 := by omega
  have es : x.sign * 2 ^ f.top = x := by
    rw [two_top]
    rcases hx with rfl | rfl
    · rw [Int.sign_eq_one_of_pos hi, Int.one_mul]
    · rw [Int.sign_neg, Int.sign_eq_one_of_pos hi]; omega
  simp only [mulNum, castF_self]
  refine ⟨fun hs => ?_, fun hs => ?_, ?_, ?_⟩
  · have : mulF f (some x) (some y) = some x := by
      rw [mulF, if_pos (.inl h1), if_neg (by omega), Int.sign_mul, Int.sign_eq_one_of_pos hs, Int.mul_one, es]
    exact ⟨by rw [this], by rw [mulF_comm, this]⟩
  · have : mulF f (some x) (some y) = some (-x) := by
      rw [mulF, if_pos (.inl h1), if_neg (by omega), Int.sign_mul, Int.sign_eq_neg_one_of_neg hs,
        show x.sign * -1 * 2 ^ f.top = -(x.sign * 2 ^ f.top) by ring, es]
    exact ⟨by rw [this], by rw [mulF_comm, this]⟩
  · rw [mulF, if_pos (.inl h1), if_pos (.inr rfl)]
  · rw [mulF, if_pos (.inr h1), if_pos (.inl rfl)]

/-- C178 for quotients with infinity `x`: divided by a number infinite with the sign of the quotient, a number divided by it is zero, and divided by itself it is
    not a number. -/
theorem quotient_infinite (f : Fmt) (x y : Int) (hx : x = inf f ∨ x = -inf f) (hy : Finite f y) :
    (0 < y → divNum f (some x) (.flt f (some y)) = .ok (.flt f (some x))) ∧ (y < 0 → divNum f (some x) (.flt f (some y)) = .ok (.flt f (some (-x)))) ∧
    divNum f (some y) (.flt f (some x)) = .ok (.flt f (some 0)) ∧ divNum f (some x) (.flt f (some x)) = .ok (.flt f none) ∧
    divNum f (some x) (.flt f (some (-x))) = .ok (.flt f none) := by
  have h1 := inf_abs hx
  have h2 := finite_lt hy
  have h3 := Nat.two_pow_pos f.top
  have hi := inf_pos f
  have h0 : x ≠ 0 := by omega
  have es : x.sign * 2 ^ f.top = x := by
    rw [two_top]
    rcases hx with rfl | rfl
    · rw [Int.sign_eq_one_of_pos hi, Int.one_mul]
    · rw [Int.sign_neg, Int.sign_eq_one_of_pos hi]; omega
  unfold divNum
  simp only [castF_self]
  refine ⟨fun hs => ?_, fun hs => ?_, ?_, ?_, ?_⟩
  · have : divF f (some x) (some y) = .ok (some x) := by
      rw [divF, if_neg (by omega)]
      rw [if_pos h1, if_neg (by omega), Int.sign_mul, Int.sign_eq_one_of_pos hs, Int.mul_one, es]
    rw [this]; rfl
  · have : divF f (some x) (some y) = .ok (some (-x)) := by
      rw [divF, if_neg (by omega)]
      rw [if_pos h1, if_neg (by omega), Int.sign_mul, Int.sign_eq_neg_one_of_neg hs,
        show x.sign * -1 * 2 ^ f.top = -(x.sign * 2 ^ f.top) by ring, es]
    rw [this]; rfl
  · have : divF f (some y) (some x) = .ok (some 0) := by
      rw [divF, if_neg h0]
      rw [if_neg (by omega), if_pos h1]
    rw [this]; rfl
  · have : divF f (some x) (some x) = .ok none := by
      rw [divF, if_neg h0]
      rw [if_pos h1, if_pos h1]
    rw [this]; rfl
  · have : divF f (some x) (some (-x)) = .ok none := by
      rw [divF, if_neg (by omega)]
      rw [if_pos h1, if_pos (by omega)]
    rw [this]; rfl

/-- C178 for what is not a number: nothing that is computed from it is one. Division of it by zero is undefined as any. -/
theorem nan_spreads (f : Fmt) (v : Option Int) :
    add (.flt f none) (.flt f v) = .ok (.flt f none) ∧ add (.flt f v) (.flt f none) = .ok (.flt f none) ∧
    sub (.flt f none) (.flt f v) = .ok (.flt f none) ∧ sub (.flt f v) (.flt f none) = .ok (.flt f none) ∧
    mulNum f none (.flt f v) = .flt f none ∧ mulNum f v (.flt f none) = .flt f none ∧
    (v ≠ some 0 → divNum f none (.flt f v) = .ok (.flt f none)) ∧ divNum f v (.flt f none) = .ok (.flt f none) := by
  refine ⟨?_, ?_, ?_, ?_, ?_, ?_, fun h => ?_, ?_⟩
  all_goals simp only [add, sub, mulNum, divNum, castF_self]
  · rfl
  · cases v <;> rfl
  · rfl
  · cases v <;> rfl
  · rfl
  · cases v <;> rfl
  · match v with
    | none => rfl
    | some y =>
      rw [divF, if_neg (by rintro rfl; exact h rfl)]
      rfl
  · cases v <;> rfl

/-- Minus infinity, 2^-149 and -1 as floats. -/
example : (-2 ^ 277 = inf .float ∨ -2 ^ 277 = -inf .float) ∧ Held .float (some (-2 ^ 277)) ∧ Finite .float 1 ∧ Finite .float (-2 ^ 149) ∧
    mulNum .float (some (-2 ^ 277)) (.flt .float (some (-2 ^ 149))) = .flt .float (some (2 ^ 277)) :=
  ⟨.inr rfl, ⟨0xFF800000, by decide +kernel⟩, ⟨1, by decide +kernel, by decide +kernel⟩, ⟨0xBF800000, by decide +kernel, by decide +kernel⟩, by decide +kernel⟩

end Libube.FloatRange

#print axioms Libube.FloatRange.sum_infinite
#print axioms Libube.FloatRange.product_infinite
#print axioms Libube.FloatRange.quotient_infinite
#print axioms Libube.FloatRange.nan_spreads

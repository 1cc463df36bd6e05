import Verif.Spec.FloatRange
import Verif.Model.FloatArith
import Mathlib.Algebra.Order.Group.Unbundled.Int
import Mathlib.Algebra.Order.Ring.Int

/-! # Specification of arithmetic on single floating point numbers (C176, C178) -/

namespace Libube.FloatRangeSpec

open FloatRange

/-- What a var of the type can hold: the number of some bit pattern, `none` for those that are not numbers. -/
def Held : Fmt → Option Int → Prop
  | .float, v => ∃ b : BitVec 32, Ieee.val32 b = v
  | .double, v => ∃ b : BitVec 64, Ieee.val64 b = v

/-- Infinity. -/
def inf : Fmt → Int
  | .float => 2 ^ 277
  | .double => 2 ^ 2098

/-- No finite number of the format is closer to the product of `x` and `y` than `r` (all in units of the smallest number, so
    that the product of `r` and 1 is compared with that of `x` and `y`). -/
def ClosestProduct (f : Fmt) (x y r : Int) : Prop :=
  Finite f r ∧ ∀ z, Finite f z → (r * one f - x * y).natAbs ≤ (z * one f - x * y).natAbs

/-- No finite number of the format is closer to the quotient of `x` and `y` than `r` (the differences are multiplied by `y`). -/
def ClosestQuotient (f : Fmt) (x y r : Int) : Prop :=
  Finite f r ∧ ∀ z, Finite f z → (r * y - x * one f).natAbs ≤ (z * y - x * one f).natAbs

/-- The largest finite number. -/
def largest : Fmt → Int
  | .float => (2 ^ 24 - 1) * 2 ^ 253
  | .double => (2 ^ 53 - 1) * 2 ^ 2045

/-- The number of the format that IEEE 754 gives for the exact `p / q`, where `q` is positive: infinity from half way beyond the
    largest number on; else a closest one, and of two that are equally close the even multiple of their distance. -/
def Rounded (f : Fmt) (p q r : Int) : Prop :=
  ((largest f + inf f) * q ≤ 2 * |p| → r = p.sign * inf f) ∧
  (2 * |p| < (largest f + inf f) * q → Finite f r ∧
    ∀ z, Finite f z → z ≠ r → |r * q - p| < |z * q - p| ∨ (|r * q - p| = |z * q - p| ∧ ∃ c, r = 2 * c * (r - z)))

/-- The number `b` is exactly `p / q` units of the format `f`. -/
inductive Exactly (f : Fmt) : Num → Int → Int → Prop where
  | int (x) : Exactly f (.int x) (x.v * one f) 1
  | same (x) : Finite f x → Exactly f (.flt f (some x)) x 1
  | narrow (x) : f = .float → Finite .double x → Exactly f (.flt .double (some x)) x (2 ^ 925)
  | widen (x) : f = .double → Finite .float x → Exactly f (.flt .float (some x)) (x * 2 ^ 925) 1

end Libube.FloatRangeSpec

import Verif.Model.FloatRange

/-! # Specification of floating point ranges (C164) -/

namespace Libube.FloatRangeSpec

open FloatRange

/-- The numbers `lo`, `lo+step`, …, `n` of them, without rounding. -/
def progression (f : Fmt) (lo step : Int) (n : Nat) : List Num :=
  (List.range n).map fun (i : Nat) => .flt f (some (lo + i * step))

/-- What a result is: nil for no elements, the number itself for one, else an array. -/
def Holds (r : Res) : List Num → Prop
  | [] => r = .nil
  | [x] => r = .number x
  | xs => r = .array xs

/-- A finite number of the format: some bit pattern of it. -/
def Finite : Fmt → Int → Prop
  | .float, x => ∃ b : BitVec 32, Ieee.val32 b = some x ∧ x.natAbs ≠ 2 ^ 277
  | .double, x => ∃ b : BitVec 64, Ieee.val64 b = some x ∧ x.natAbs ≠ 2 ^ 2098

/-- No finite number of the format is closer to `x` than `y`. -/
def Closest (f : Fmt) (x y : Int) : Prop := Finite f y ∧ ∀ z, Finite f z → (y - x).natAbs ≤ (z - x).natAbs

/-- A multiple of 2^`k` units that is small enough to have all its digits in the format. -/
def OnGrid (f : Fmt) (k : Nat) (x : Int) : Prop := ∃ a : Int, x = a * 2 ^ k ∧ a.natAbs ≤ 2 ^ (f.frac + 1)

/-- The number 1 of a format. -/
def one : Fmt → Int
  | .float => 2 ^ 149
  | .double => 2 ^ 1074

/-- A step of a number of units: of the type of the bounds, or a whole number of an integer type. -/
def Amount (f : Fmt) (step : Num) (s : Int) : Prop := step = .flt f (some s) ∨ ∃ x, step = .int x ∧ s = x.v * one f

/-- A positive number whose last digit is worth 2^`k` units. -/
def LastDigit (f : Fmt) (k : Nat) (x : Int) : Prop := ∃ c : Int, x = c * 2 ^ k ∧ 2 ^ f.frac ≤ c ∧ c < 2 ^ (f.frac + 1)

end Libube.FloatRangeSpec

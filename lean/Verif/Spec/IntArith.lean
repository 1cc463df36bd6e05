import Verif.Model.IntArith

/-! # Specification of arithmetic on single integers (C176, C177) -/

namespace Libube.IntSpec

/-- The number a var holds. -/
def num : Whole → Int
  | .char c => c.toBitVec.toInt
  | .int i => i.toInt
  | .long l => l.toInt

/-- The number of bits of its type. -/
def width : Whole → Nat
  | .char _ => 8
  | .int _ => 32
  | .long _ => 64

/-- `z` is the result for the integers `x` and `y`; that of a division is the quotient without the part behind the point:
    what remains is smaller than the divisor, and has the sign of the dividend. -/
def Exact : IntOp → Int → Int → Int → Prop
  | .add, x, y, z => z = x + y
  | .sub, x, y, z => z = x - y
  | .mul, x, y, z => z = x * y
  | .div, x, y, z => ∃ r, x = y * z + r ∧ |r| < |y| ∧ (0 ≤ x → 0 ≤ r) ∧ (x ≤ 0 → r ≤ 0)

end Libube.IntSpec

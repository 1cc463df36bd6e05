import Verif.Spec.FloatArith
import Verif.Model.Complex

/-! # Specification of arithmetic on single complex numbers (C176, C179) -/

namespace Libube.FloatRangeSpec

open FloatRange

/-- The whole numbers up to this can be multiplied and the products added without rounding. -/
def small : Fmt → Int
  | .float => 2 ^ 11
  | .double => 2 ^ 26

/-- The complex number with whole parts `a` and `b`. -/
def gauss (f : Fmt) (a b : Int) : Cplx := ⟨some (a * one f), some (b * one f)⟩

end Libube.FloatRangeSpec

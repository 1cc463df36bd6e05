import Verif.Model.Arith

/-! # Unary minus (lube/var.h) -/

namespace Libube.Arith

/-- `var::operator -()` (lube/var.h:113) of an array: the product with `-1`, which is `minus1` after conversion to the
    element type.  `mul` is the multiplication of elements. -/
def negate (mul : α → α → α) (re : α → α) (minus1 : α) (a : Ref) (junk : List α) (m : Mem α) : Outcome (Ref × Mem α) :=
  binOp .mul mul re a (.num minus1) junk m

end Libube.Arith

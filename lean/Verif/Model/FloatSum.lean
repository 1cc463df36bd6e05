import Verif.Model.Rows
import Verif.Model.FloatArith

/-! # The sum of an array of floating point numbers (lube/math.cpp:869-936)

The loops are those of Model/Rows, with the arithmetic of Model/FloatRange in place of that of a ring. -/

namespace Libube.FloatRange

/-- An element of an array of `float` or `double` (lube/var.h:207-208), in units of the smallest positive number. -/
structure Elem (f : Fmt) where
  v : Option Int
deriving DecidableEq, Repr

/-- `(T)0` (lube/math.cpp:904). -/
instance : Zero (Elem f) := ⟨⟨some 0⟩⟩

/-- The built-in `+=` (lube/math.cpp:906). -/
instance : Add (Elem f) := ⟨fun a b => ⟨addF f a.v b.v⟩⟩

/-- The type of an array of such elements (lube/var.h:36-37). -/
def Fmt.kind : Fmt → Kind
  | .float => .float
  | .double => .double

/-- `sum(x)` of an array of floating point numbers (lube/func.cpp:32-37, 96-131, lube/math.cpp:869-898). -/
def sumElems (f : Fmt) (junk : List (Elem f)) (a : View.Arr (Elem f)) : Outcome (View.Arr (Elem f)) := Rows.sum f.kind junk a

/-- An element of an array of `cfloat` (lube/var.h:209). -/
structure ElemC where
  re : Elem .float
  im : Elem .float
deriving DecidableEq, Repr

/-- `(T)0` for `std::complex<float>` (lube/math.cpp:904). -/
instance : Zero ElemC := ⟨⟨0, 0⟩⟩

/-- `+=` of `std::complex<float>` (lube/math.cpp:906): the parts are added. -/
instance : Add ElemC := ⟨fun a b => ⟨a.re + b.re, a.im + b.im⟩⟩

/-- `sum(x)` of an array of `cfloat` (lube/func.cpp:32-37, 96-131, lube/math.cpp:869-898). -/
def sumComplex (junk : List ElemC) (a : View.Arr ElemC) : Outcome (View.Arr ElemC) := Rows.sum .cfloat junk a

end Libube.FloatRange

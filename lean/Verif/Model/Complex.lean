import Verif.Model.FloatArith

/-! # Arithmetic on single complex numbers (lube/math.cpp)

Real and imaginary part are floating point numbers as in Model/FloatRange.  Division is left out: the library function
called for it scales its operands in a way that depends on the compiler. -/

namespace Libube.FloatRange

/-- A complex number (lube/var.h:38-39, 209; a `cdouble` is kept in an array). -/
structure Cplx where
  re : Option Int
  im : Option Int
deriving DecidableEq, Repr

/-- A right operand: a real number, a `cfloat` or a `cdouble` (lube/var.h:33-39). -/
inductive Operand where
  | real (b : Num)
  | cplx (f : Fmt) (z : Cplx)
deriving DecidableEq, Repr

/-- `cast<cfloat>()` and `cast<cdouble>()` (lube/var.cpp:144-149, 646-700).  A `cfloat` is converted to `cdouble` by its real
    part (lube/var.cpp:691-693).  A `cdouble` is an array, so its cast to `cfloat` is an array too, of which `get<cfloat>()`
    then reads the pointer (lube/var.cpp:34-49, 673-675). -/
def castC : Fmt → Operand → Outcome Cplx
  | f, .real b => .ok ⟨castF f b, some 0⟩
  | .float, .cplx .float z => .ok z
  | .double, .cplx .double z => .ok z
  | .double, .cplx .float z => .ok ⟨castF .double (.flt .float z.re), some 0⟩
  | .float, .cplx .double _ => .ub .typePun

/-- `cast<float>()` and `cast<double>()` (lube/var.cpp:138-143, 646-700) of an operand: of a `cfloat` the real part. -/
def castR (f : Fmt) : Operand → Outcome (Option Int)
  | .real b => .ok (castF f b)
  | .cplx .float z => .ok (castF f (.flt .float z.re))
  | .cplx .double _ => .ub .typePun

/-- `operator +` of `std::complex` (used at lube/math.cpp:351, 354). -/
def addC (f : Fmt) (x y : Cplx) : Cplx := ⟨addF f x.re y.re, addF f x.im y.im⟩

/-- `operator -` of `std::complex` (used at lube/math.cpp:430, 433). -/
def subC (f : Fmt) (x y : Cplx) : Cplx := ⟨addF f x.re (negF y.re), addF f x.im (negF y.im)⟩

/-- `operator *` of `std::complex` (used at lube/math.cpp:570, 573).  Where neither part is a number the library tries again
    in another way (C11 Annex G.5.1), which is not modelled: `none`. -/
def mulC (f : Fmt) (x y : Cplx) : Option Cplx :=
  let re := addF f (mulF f x.re y.re) (negF (mulF f x.im y.im))
  let im := addF f (mulF f x.re y.im) (mulF f x.im y.re)
  if re = none ∧ im = none then none else some ⟨re, im⟩

/-- `Add::scalar` for a complex number on the left (lube/math.cpp:350-355). -/
def addCplx (f : Fmt) (x : Cplx) (b : Operand) : Outcome Cplx := do
  let y ← castC f b
  .ok (addC f x y)

/-- `Sub::scalar` for a complex number on the left (lube/math.cpp:429-434). -/
def subCplx (f : Fmt) (x : Cplx) (b : Operand) : Outcome Cplx := do
  let y ← castC f b
  .ok (subC f x y)

/-- `Mul::scalar` for a complex number on the left (lube/math.cpp:569-574). -/
def mulCplx (f : Fmt) (x : Cplx) (b : Operand) : Outcome (Option Cplx) := do
  let y ← castC f b
  .ok (mulC f x y)

/-- `Add::scalar` for a real floating point number on the left (lube/math.cpp:344-349) and any number on the right. -/
def addReal (f : Fmt) (x : Option Int) (b : Operand) : Outcome (Option Int) := do
  let y ← castR f b
  .ok (addF f x y)

/-- `var::operator -()` (lube/var.h:113) of a complex number. -/
def negateCplx (f : Fmt) (x : Cplx) : Outcome (Option Cplx) := mulCplx f x (.real (.int ⟨.int, -1⟩))

end Libube.FloatRange

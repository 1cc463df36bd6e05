/-! # Element types of arrays -/

namespace Libube

/-- The element types an array can have (lube/var.h:31-42; storage in lube/heap.h:156-166). -/
inductive Kind where
  | char | int | long | float | double | cfloat | cdouble | var | pair
deriving DecidableEq, Repr

end Libube

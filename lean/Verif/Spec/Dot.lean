import Verif.Spec.Rows
import Mathlib.Data.Matrix.Mul

/-! # Specification of inner products and matrix multiplication (C98–C100) -/

namespace Libube.DotSpec

open View

/-- The array is a matrix of `m` rows and `n` columns, stored from element `o` on row by row, with these entries. -/
def IsMatrix (a : Arr α) (o : Nat) {m n : Nat} (A : Matrix (Fin m) (Fin n) α) : Prop :=
  RowsSpec.Shaped a o [(m : Int), (n : Int)] ∧ ∀ (i : Fin m) (j : Fin n), a.data[o + n * i + j]? = some (A i j)

end Libube.DotSpec

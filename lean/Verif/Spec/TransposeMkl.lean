import Verif.Model.TransposeMkl
import Verif.Spec.Transpose

/-! # Specification of transposition with the MKL (C148) -/

namespace Libube.TransposeMklSpec

open TransposeSpec

/-- The contract of the library: matrices without gaps between the rows, of which the leading dimensions are the numbers of columns
    before and after, are transposed. -/
structure Contract (L : TransposeMkl.Lib α) : Prop where
  omatcopy : ∀ R C xs, xs.length = R * C → IsTranspose R C xs (L.omatcopy R C C R xs)
  imatcopy : ∀ R C xs, xs.length = R * C → IsTranspose R C xs (L.imatcopy R C C R xs)

end Libube.TransposeMklSpec

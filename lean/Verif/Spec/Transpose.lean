/-! # Specification of transposition (C56-C58) -/

namespace Libube.TransposeSpec

/-- `ys` is the transpose of the `R` by `C` matrix `xs`, both stored by rows: element (c, r) of
    `ys` is element (r, c) of `xs`. -/
structure IsTranspose (R C : Nat) (xs ys : List α) : Prop where
  size_in : xs.length = R * C
  size_out : ys.length = C * R
  swap : ∀ r c, r < R → c < C → ys[c * R + r]? = xs[r * C + c]?

end Libube.TransposeSpec

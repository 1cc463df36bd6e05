import Mathlib.Algebra.BigOperators.Group.Finset.Basic
import Mathlib.Algebra.Field.Basic

/-! # Specification of roots (C60) -/

namespace Libube.RootsSpec

open scoped BigOperators

/-- `z` is an eigenvalue of the `n` by `n` matrix `M`, seen over a larger field. -/
def Eigenvalue [Field K] [Field L] (f : K →+* L) (n : Nat) (M : Nat → Nat → K) (z : L) : Prop :=
  ∃ v : Nat → L, (∃ i, i < n ∧ v i ≠ 0) ∧ ∀ i, i < n → ∑ j ∈ Finset.range n, f (M i j) * v j = z * v i

/-- `data` holds the `n` by `n` matrix `M` column by column, as LAPACK expects it. -/
def ColumnMajor (data : List K) (n : Nat) (M : Nat → Nat → K) : Prop :=
  data.length = n * n ∧ ∀ i, i < n → ∀ j, j < n → data[i + n * j]? = some (M i j)

/-- The value at `z` of the polynomial of degree `n` with coefficients `p 0`, …, `p n`, highest power
    first. -/
def value [Field K] [Field L] (f : K →+* L) (n : Nat) (p : Nat → K) (z : L) : L :=
  ∑ k ∈ Finset.range (n + 1), f (p k) * z ^ (n - k)

/-- What is expected of the eigenvalue solver: the values found are the eigenvalues. -/
def Solves [Field K] [Field L] (f : K →+* L) (mk : K × K → L) (geev : Nat → List K → List (K × K)) : Prop :=
  ∀ n data M, ColumnMajor data n M → ∀ z, (∃ w ∈ geev n data, mk w = z) ↔ Eigenvalue f n M z

end Libube.RootsSpec

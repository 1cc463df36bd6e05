import Verif.Model.DftMkl
import Verif.Spec.Dft

/-! # Specification of transforms with the MKL (C149, C150) -/

namespace Libube.DftMklSpec

open DftSpec

/-- The spectrum of `n` numbers of which `z 0` to `z (n/2)` is the first half: the second half is the conjugate of the first, from the
    end; what is its own conjugate has no imaginary part. -/
noncomputable def whole (n : Nat) (z : Fin (n / 2 + 1) → ℂ) (k : Fin n) : ℂ :=
  if h : k.val ≤ n / 2 then
    if k.val = 0 ∨ 2 * k.val = n then ((z ⟨k, by omega⟩).re : ℂ) else z ⟨k, by omega⟩
  else (starRingEnd ℂ) (z ⟨n - k, by omega⟩)

/-- The contract of the library: what it computes, without rounding, for all sizes. -/
structure Contract (M : DftMkl.Dfti ℝ ℂ) : Prop where
  forwardC : ∀ (n : Nat) (x : Fin n → ℂ), 0 < n → M.forwardC n (List.ofFn x) = List.ofFn (fun k : Fin n => dft n x k)
  backwardC : ∀ (n : Nat) (z : Fin n → ℂ), 0 < n → M.backwardC n (List.ofFn z) = List.ofFn (fun j : Fin n => idft n z j)
  forwardR : ∀ (n : Nat) (x : Fin n → ℝ), 0 < n →
    M.forwardR n (List.ofFn x) = List.ofFn (fun k : Fin (n / 2 + 1) => dft n (fun j => (x j : ℂ)) k)
  backwardR : ∀ (n : Nat) (z : Fin (n / 2 + 1) → ℂ), 0 < n →
    M.backwardR n (List.ofFn z) = List.ofFn (fun j : Fin n => (idft n (whole n z) j).re)

/-- What is called an array of another type is of another type than the two. -/
def Proper (x : Dft.Data ρ κ) : Prop := ∀ k a, x = .other k a → k ≠ .float ∧ k ≠ .cfloat

end Libube.DftMklSpec

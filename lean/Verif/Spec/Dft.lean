import Verif.Model.Dft
import Verif.Spec.Reduce
import Mathlib.Analysis.SpecialFunctions.Complex.Circle

/-! # Specification of the discrete Fourier transform (C113–C115) -/

namespace Libube.DftSpec

open Complex

/-- The `m`-th power of the first of the `n`-th roots of 1, of which the angle is 2π/n. -/
noncomputable def root (n : Nat) (m : Int) : ℂ := exp (2 * Real.pi * I * m / n)

/-- The discrete Fourier transform of `x`. -/
noncomputable def dft (n : Nat) (x : Fin n → ℂ) (k : Nat) : ℂ := ∑ j : Fin n, x j * root n (-(j.val * k : Nat))

/-- What remains to be divided by `n` to have the inverse transform. -/
noncomputable def idft (n : Nat) (z : Fin n → ℂ) (j : Nat) : ℂ := ∑ k : Fin n, z k * root n (k.val * j : Nat)

/-- The same from the first half of a spectrum, `z 0` to `z (n/2)`; the other half is the conjugate, and the parts that
    would not give real numbers are left out. -/
noncomputable def idftr (n : Nat) (z : Fin (n / 2 + 1) → ℂ) (j : Nat) : ℝ :=
  ∑ k : Fin (n / 2 + 1), (if k.val = 0 ∨ k.val = n / 2 then 1 else 2) *
    (if k.val = 0 ∨ k.val = n / 2 then ((z k).re : ℂ) * root n (k.val * j : Nat) else z k * root n (k.val * j : Nat)).re

/-- The contract of the library: what its functions compute, without rounding. -/
structure Contract (K : Dft.Kiss ℝ ℂ) : Prop where
  fft : ∀ (n : Nat) (x : Fin n → ℂ), 0 < n → K.fft n (List.ofFn x) = List.ofFn (fun k : Fin n => dft n x k)
  ifft : ∀ (n : Nat) (z : Fin n → ℂ), 0 < n → K.ifft n (List.ofFn z) = List.ofFn (fun j : Fin n => idft n z j)
  fftr : ∀ (n : Nat) (x : Fin n → ℝ), 0 < n → n % 2 = 0 →
    K.fftr n (List.ofFn x) = List.ofFn (fun k : Fin (n / 2 + 1) => dft n (fun j => (x j : ℂ)) k)
  fftri : ∀ (n : Nat) (z : Fin (n / 2 + 1) → ℂ), 0 < n → n % 2 = 0 → K.fftri n (List.ofFn z) = List.ofFn (fun j : Fin n => idftr n z j)

/-- `y` has `n` rows from `o'` on, `w` elements each; row `i` is `F` of the first `r` elements of row `i` of `d`, of which the rows are
    from `o` on, `c` elements each. -/
def RowsTo (d : List α) (o c r : Nat) (y : List β) (o' w n : Nat) (F : (Fin r → α) → Nat → β) : Prop :=
  ∀ i (x : Fin r → α), i < n → ReduceSpec.RowAt d (o + c * i) (List.ofFn x) →
    ReduceSpec.RowAt y (o' + w * i) (List.ofFn (fun k : Fin w => F x k))

/-- `y` differs from `b` at most in the `m` elements from `p` on. -/
def OnlyIn (b y : List β) (p m : Nat) : Prop := y.length = b.length ∧ ∀ k, k < p ∨ p + m ≤ k → y[k]? = b[k]?

end Libube.DftSpec

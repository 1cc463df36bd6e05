import Verif.Spec.FloatArith
import Verif.Model.FloatSum

/-! # Specification of sums of arrays of floating point numbers (C183) -/

namespace Libube.FloatRangeSpec

open FloatRange

/-- The number `t` that comes after `s` when the finite `x` is added; from infinity there is no way back. -/
def Adds (f : Fmt) (s x t : Int) : Prop := (|s| < inf f → Rounded f (s + x) 1 t) ∧ (|s| = inf f → t = s)

/-- Numbers added one after the other to `s` give `r`. -/
inductive Running (f : Fmt) : Int → List Int → Int → Prop where
  | done (s) : Running f s [] s
  | step {s x t xs r} : Adds f s x t → Running f t xs r → Running f s (x :: xs) r

/-- How many binary digits a number of the format has. -/
def digits : Fmt → Nat
  | .float => 24
  | .double => 53

/-- The numbers as elements of an array. -/
def elements (f : Fmt) (xs : List Int) : List (Elem f) := xs.map fun x => ⟨some x⟩

/-- The complex numbers with these parts. -/
def complexElements (xs ys : List Int) : List ElemC := (xs.zip ys).map fun p => ⟨⟨some p.1⟩, ⟨some p.2⟩⟩

end Libube.FloatRangeSpec

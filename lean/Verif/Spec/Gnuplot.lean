import Verif.Model.Gnuplot
import Verif.Spec.Arith

/-! # Specification of plotting (C128, C129) -/

namespace Libube.GnuplotSpec

open Arith ArithSpec Gnuplot CString

/-- Types of real numbers. -/
def Real (k : Num) : Prop := k = .int ∨ k = .long ∨ k = .float ∨ k = .double

/-- Text without NUL characters. -/
def Plain (s : Bytes) : Prop := ∀ c ∈ s, c ≠ 0

/-- The text gnuplot is to receive for an item: a command as it is; a number and a vector one number per line, ended by `e`; a matrix with one
    line for each column, an empty line and `e`. -/
inductive Shows (sh : α → Bytes) (m : Mem α) : Item α → Bytes → Prop
  | cmd (s) : Plain s → Shows sh m (.cmd s) (s ++ [10])
  | num (x) : Shows sh m (.num x) (sh x ++ [10] ++ [101, 10])
  | vector (b : Ref) (o : Nat) (xs : List α) : Real b.kind → IsArr m b o [(xs.length : Int)] → (∀ (j : Nat) (x : α), xs[j]? = some x → At m b.heap (o + j) x) →
      Shows sh m (.arr b) (xs.flatMap (fun x => sh x ++ [10]) ++ [101, 10])
  | matrix (b : Ref) (o r : Nat) (cols : List (List α)) : Real b.kind → IsArr m b o [(r : Int), (cols.length : Int)] →
      (∀ (j : Nat) (c : List α), cols[j]? = some c → c.length = r ∧ ∀ (i : Nat) (x : α), c[i]? = some x → At m b.heap (o + (i * cols.length + j)) x) →
      Shows sh m (.arr b) (cols.flatMap (fun c => c.flatMap (fun x => 32 :: sh x) ++ [10]) ++ [10] ++ [101, 10])

/-- The second item is an array that can be copied into the first, a view: they have the same element type and shape. -/
def Clash (m : Mem α) (x y : Item α) : Prop :=
  ∃ (v b : Ref) (ov ob : Nat) (shape : List Int), x = .arr v ∧ y = .arr b ∧ v.ip ≠ none ∧ v.kind = b.kind ∧ IsArr m v ov shape ∧ IsArr m b ob shape

end Libube.GnuplotSpec

import Verif.Spec.Order
import Verif.Model.MapOps

/-! # Specification of maps (C33-C36, C77): histories of statements, independent of the
representation -/

namespace Libube.MapSpec

open Libube

/-- The key a statement is about. -/
def keyOf : MapOp → Val
  | .set k _ => k
  | .touch k => k

variable (Same : Val → Val → Prop)

/-- The last assignment to (a key equal to) `k` in the history assigned `v`. -/
def LastSet (h : List MapOp) (k v : Val) : Prop :=
  ∃ a b k', h = a ++ .set k' v :: b ∧ Same k' k ∧ ∀ k'' v'', .set k'' v'' ∈ b → ¬ Same k'' k

/-- No statement of the history assigns to `k`. -/
def NeverSet (h : List MapOp) (k : Val) : Prop := ∀ k' v', .set k' v' ∈ h → ¬ Same k' k

/-- `ks` lists the distinct keys the history is about. -/
def DistinctKeys (h : List MapOp) (ks : List Val) : Prop :=
  ks.Pairwise (fun a b => ¬ Same a b) ∧
  (∀ op ∈ h, ∃ k ∈ ks, Same k (keyOf op)) ∧ (∀ k ∈ ks, ∃ op ∈ h, Same k (keyOf op))

end Libube.MapSpec

namespace Libube.MapSpec

open Libube

/-- Numeric arrays with exactly one element, that element not being NaN: the arrays for which
    the order of the library is a linear order. -/
def IsUnitArray : Val → Prop
  | .ints [_] => True
  | .longs [_] => True
  | .floats [f] => ∃ x, Ieee.val32 f = some x
  | .doubles [d] => ∃ x, Ieee.val64 d = some x
  | _ => False

end Libube.MapSpec

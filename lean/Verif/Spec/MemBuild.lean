import Verif.Spec.MemMaps

/-! # Specification of building arrays from nil (C166) -/

namespace Libube.MemSpec

open Mem

/-- The first value: nil, a string, or a variable that holds an array or nil. -/
def Item.Opens (s : State α) : Item α → Prop
  | .nil => True
  | .str cs => Fits cs
  | .name m => s.stk[m]? = some .nil ∨ ∃ b, s.stk[m]? = some (.arr b)
  | _ => False

/-- The statements `x.push(t)` for variable `n` and each of the values. -/
def pushes (n : Nat) (ts : List (Item α)) : List (Stmt α) := ts.map fun t => .push n t.exp

end Libube.MemSpec

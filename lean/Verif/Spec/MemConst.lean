import Verif.Spec.MemShare

/-! # Specification of what calls of const functions leave alone (C173) -/

namespace Libube.MemSpec

open Mem

/-- A variable holds the array, or an array that a variable holds has it for an element, and so on. -/
inductive InVars (s : State α) : Addr → Prop
  | var {v : V α} {a : Addr} : v ∈ s.stk → VTo v a → InVars s a
  | elem {b a : Addr} : InVars s b → Points s b a → InVars s a

/-- Two states hold the same: the variables are the same, and all that they hold has the type, the size and the
    elements it had. -/
def InVarsSame (s s' : State α) : Prop :=
  s'.stk = s.stk ∧ ∀ a, InVars s a → ∃ o o' : Obj α, s.mem[a]? = some (some o) ∧ s'.mem[a]? = some (some o') ∧
    o'.kind = o.kind ∧ o'.size = o.size ∧ o'.cells = o.cells

/-- The statement compares two variables, searches one of them for the other, or prints one. -/
def Looks : Stmt α → Prop
  | .differ .. | .equal .. | .less .. | .find .. | .print .. => True
  | _ => False

end Libube.MemSpec

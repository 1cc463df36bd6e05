import Verif.Spec.MemMaps

/-! # Specification of assignments to variables and references (C38, C92–C94) -/

namespace Libube.MemSpec

open Mem

/-- Expressions with a value: nil, numbers, strings, variables that are no references, and elements of arrays of vars or
    numbers. -/
def Given (s : State α) : Exp α → Prop
  | .nil => True
  | .num k _ => Scalar k
  | .str cs => Fits cs
  | .name m => ∃ v, s.stk[m]? = some v ∧ Plain v
  | .elem m i => ∃ j : Nat, i = j ∧
      ((∃ vs, Vars s m vs ∧ j < vs.length) ∨ ∃ k xs, Scalar k ∧ Contents s m k xs ∧ j < xs.length)
  | _ => False

/-- The arrays of `s`, seen by a variable that is array `b`. -/
def Seen (s : State α) (b : Addr) : State α := { s with stk := [.arr b] }

/-- Variable `r` is a reference to element `i` of the array of variable `n`. -/
def RefersAt (s : State α) (r n i : Nat) : Prop :=
  ∃ a, s.stk[n]? = some (.arr a) ∧ s.stk[r]? = some (.ref a i)

end Libube.MemSpec

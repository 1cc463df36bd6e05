import Verif.Spec.MemCompare
import Verif.Spec.MemMaps

/-! # Specification of sorting (C172) -/

namespace Libube.MemSpec

open Mem

variable {α : Type}

/-- One more variable, a new array with value `y`.  No other array is changed, and every other variable has the value it had. -/
def NewArray (N : Numbers α) (s s' : State α) (y : Val) : Prop :=
  ∃ b, s.mem[b]? = none ∧ s'.stk = s.stk ++ [.arr b] ∧ HoldsVal N s'.mem (.arr b) y ∧ AllSame s s' ∧ ∀ (k : Nat) (z : Val), HasValue N s k z → HasValue N s' k z

/-- The arrays that are elements of variable `k` are elements of variable `m`. -/
def SharesWith (s : State α) (k m : Nat) : Prop :=
  ∀ (b : Addr) (o : Obj α) (i : Nat) (d : Addr), s.stk[k]? = some (.arr b) → s.mem[b]? = some (some o) → i < o.size → o.cells[i]? = some (.var (.arr d)) →
    ∃ (v : V α) (c : Addr) (p : Obj α) (j : Nat), s.stk[m]? = some v ∧ StandsFor s.mem v (.arr c) ∧ s.mem[c]? = some (some p) ∧
      (p.cells[j]? = some (.var (.arr d)) ∨ ∃ u, p.cells[j]? = some (.pair u (.arr d)))

end Libube.MemSpec

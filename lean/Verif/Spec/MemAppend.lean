import Verif.Spec.MemVars

/-! # Specification of presize and append (C110–C112) -/

namespace Libube.MemSpec

open Mem

/-- The array of variable `n` has memory for `c` elements. -/
def Places (s : State α) (n c : Nat) : Prop :=
  ∃ a o, s.stk[n]? = some (.arr a) ∧ s.mem[a]? = some (some o) ∧ o.cells.length = c

/-- All variables but `n`, and all arrays there were, are as they were. -/
def OnlyVar (s s' : State α) (n : Nat) : Prop :=
  (∀ m, m ≠ n → s'.stk[m]? = s.stk[m]?) ∧ ∀ b, b < s.mem.length → s'.mem[b]? = s.mem[b]?

end Libube.MemSpec

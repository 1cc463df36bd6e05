import Verif.Spec.MemArray

/-! # Specification of downloads (C73) -/

namespace Libube.Curl

open Mem MemSpec

/-- `v` is a new string with no other owner, terminated, with characters `cs`; nothing else has been changed, and
    nothing else that has been allocated on the way is left. -/
def NewString [Env α] (s s' : State α) (v : V α) (cs : List α) : Prop :=
  s'.stk = s.stk ∧ ∃ a o, v = .arr a ∧ s.mem.length ≤ a ∧ s'.mem[a]? = some (some o) ∧ o.rc = 1 ∧
    Elements o .char cs ∧ o.cells[o.size]? = some (.raw (some Env.nul)) ∧
    ∀ b, b ≠ a → (Allocated s' b ↔ Allocated s b) ∧ (Allocated s b → s'.mem[b]? = s.mem[b]?)

/-- Nothing has been changed, and nothing that has been allocated is left. -/
def Unchanged (s s' : State α) : Prop :=
  s'.stk = s.stk ∧ ∀ b, (Allocated s' b ↔ Allocated s b) ∧ (Allocated s b → s'.mem[b]? = s.mem[b]?)

end Libube.Curl

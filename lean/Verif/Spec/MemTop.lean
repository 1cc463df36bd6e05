import Verif.Spec.MemMaps

/-! # Specification of `top` (C174) -/

namespace Libube.MemSpec

open Mem

/-- Variable `m` is a reference to the last element of the array of variable `n`, and that is `c`. -/
def RefersLast (s : State α) (m n : Nat) (c : Cell α) : Prop :=
  ∃ a o i, s.stk[m]? = some (.ref a i) ∧ s.stk[n]? = some (.arr a) ∧ s.mem[a]? = some (some o) ∧ o.size = i + 1 ∧ o.cells[i]? = some c

end Libube.MemSpec

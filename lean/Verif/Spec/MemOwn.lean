import Verif.Spec.MemArray

/-! # Specification of arrays given elements of arrays (C154) -/

namespace Libube.MemSpec

open Mem

variable {α : Type}

/-- Variable `n` is an array of `m` elements of type `k`, the first of which are `xs`. -/
def Begins (s : State α) (n : Nat) (k : Kind) (m : Nat) (xs : List α) : Prop :=
  ∃ a o, s.stk[n]? = some (.arr a) ∧ s.mem[a]? = some (some o) ∧ o.kind = k ∧ o.size = m ∧
    ∀ (i : Nat) (x : α), xs[i]? = some x → o.cells[i]? = some (.raw (some x))

end Libube.MemSpec

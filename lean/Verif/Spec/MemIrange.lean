import Verif.Spec.MemArith

/-! # Specification of calls of `irange` and `range` (C165) -/

namespace Libube.MemSpec

open Mem

variable {α : Type}

/-- The list is `x`, `next x`, … as far as `goes` holds. -/
inductive Until (next : α → α) (goes ok : α → Prop) : α → List α → Prop
  | stop {x : α} : ¬ goes x → Until next goes ok x []
  | go {x : α} {xs : List α} : goes x → ok x → Until next goes ok (next x) xs → Until next goes ok x (x :: xs)

/-- Variable `n` is nil for no numbers, the number if there is one, else the array of them. -/
def Shown (s : State α) (n : Nat) (k : Kind) : List α → Prop
  | [] => s.stk[n]? = some .nil
  | [x] => s.stk[n]? = some (.num k x)
  | xs => Contents s n k xs

end Libube.MemSpec

import Verif.Spec.MemArith
import Verif.Spec.MemString

/-! # Specification of moving and swapping variables (C161, C162) -/

namespace Libube.MemSpec

open Mem

variable {α : Type}

/-- What variable `n` shows is `w`: the variable is `w`, or a reference to an element or the value of an entry that is `w`. -/
def Displays (s : State α) (n : Nat) (w : V α) : Prop :=
  (Plain w ∧ Stands s n w) ∨
  ∃ a i o x, s.stk[n]? = some (.ref a i) ∧ s.mem[a]? = some (some o) ∧ Scalar o.kind ∧ o.cells[i]? = some (.raw (some x)) ∧ w = .num o.kind x

/-- `std::swap(x, y)` as the C++ library has it ([utility.swap]; `var` has none of its own): `var t = std::move(x);
    x = std::move(y); y = std::move(t);`, where `t` is the variable after the `k` there are. -/
def swapping (x y k : Nat) : List (Stmt α) := [.decl (.move x), .assign x (.move y), .assign y (.move k), .leave]

end Libube.MemSpec

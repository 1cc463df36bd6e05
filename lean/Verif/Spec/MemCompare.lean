import Verif.Spec.MemPrint
import Verif.Spec.Order
import Verif.Model.MemCompare

/-! # Specification of comparing and searching (C170, C171) -/

namespace Libube.MemSpec

open Mem CString

variable {α : Type}

/-- The value of a number. -/
def scalarVal (N : Numbers α) : Kind → α → Option Val
  | .char, x => some (.char (N.char x))
  | .int, x => some (.int (N.int x))
  | .long, x => some (.long (N.long x))
  | .float, x => some (.float (N.float x))
  | .double, x => some (.double (N.double x))
  | .cfloat, x => some (.cfloat (N.cfloat x).1 (N.cfloat x).2)
  | _, _ => none

/-- The value of an array of numbers, characters and complex numbers of double precision aside. -/
def arrayVal (N : Numbers α) : Kind → List α → Option Val
  | .int, xs => some (.ints (xs.map N.int))
  | .long, xs => some (.longs (xs.map N.long))
  | .float, xs => some (.floats (xs.map N.float))
  | .double, xs => some (.doubles (xs.map N.double))
  | .cfloat, xs => some (.cfloats (xs.map N.cfloat))
  | _, _ => none

/-- The value a var has.  A string ends with a NUL that does not belong to it. -/
inductive HoldsVal (N : Numbers α) (mem : List (Option (Obj α))) : V α → Val → Prop
  | nil : HoldsVal N mem .nil .nil
  | num {k : Kind} {x : α} {y : Val} : scalarVal N k x = some y → HoldsVal N mem (.num k x) y
  | nums {a : Addr} {o : Obj α} {k : Kind} {xs : List α} {y : Val} : mem[a]? = some (some o) → Elements o k xs → arrayVal N k xs = some y →
      HoldsVal N mem (.arr a) y
  | str {a : Addr} {o : Obj α} {xs : List α} {z : α} : mem[a]? = some (some o) → Elements o .char xs →
      o.cells[xs.length]? = some (.raw (some z)) → N.char z = 0 → HoldsVal N mem (.arr a) (.chars (xs.map N.char))
  | list {a : Addr} {o : Obj α} {ys : List Val} {v : Nat → V α} : mem[a]? = some (some o) → o.kind = .var → o.size = ys.length →
      (∀ i : Nat, i < ys.length → o.cells[i]? = some (.var (v i))) → (∀ (i : Nat) (y : Val), ys[i]? = some y → HoldsVal N mem (v i) y) →
      HoldsVal N mem (.arr a) (.arr ys)
  | map {a : Addr} {o : Obj α} {ys : List (Val × Val)} {u v : Nat → V α} : mem[a]? = some (some o) → o.kind = .pair → o.size = ys.length →
      (∀ i : Nat, i < ys.length → o.cells[i]? = some (.pair (u i) (v i))) → (∀ (i : Nat) (y : Val × Val), ys[i]? = some y → HoldsVal N mem (u i) y.1) →
      (∀ (i : Nat) (y : Val × Val), ys[i]? = some y → HoldsVal N mem (v i) y.2) → HoldsVal N mem (.arr a) (.map ys)

/-- Variable `m` has the value, or refers to an element that has. -/
def HasValue (N : Numbers α) (s : State α) (m : Nat) (y : Val) : Prop :=
  ∃ v w, s.stk[m]? = some v ∧ StandsFor s.mem v w ∧ HoldsVal N s.mem w y

end Libube.MemSpec

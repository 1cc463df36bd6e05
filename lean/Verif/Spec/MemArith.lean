import Verif.Spec.MemUnary
import Verif.Model.MemProg

/-! # Specification of arithmetic on variables, elements and nested data (C157, C158) -/

namespace Libube.MemSpec

open Mem

/-- The operation is defined for the number `x` of type `k` and, on the right, `y` of type `j`: `pow` takes no
    integers. -/
def Takes [Env α] (F : Bin α) (j : Kind) (y : α) (k : Kind) (x : α) : Prop :=
  Number k ∧ (F.op = .pow → k ≠ .char ∧ k ≠ .int ∧ k ≠ .long) ∧ F.ok k x (Env.conv j k y) = true

/-- The result: the right operand is converted to the type of the left one, which the result has. -/
def result [Env α] (F : Bin α) (j : Kind) (y : α) (k : Kind) (x : α) : Kind × α := (k, F.f k x (Env.conv j k y))

/-- The var is a number: by itself, or as a reference to an element of an array of numbers, of an array of
    vars, or to a value of a map. -/
inductive NumberAt (mem : List (Option (Obj α))) : V α → Kind → α → Prop
  | plain {k : Kind} {x : α} : Scalar k → NumberAt mem (.num k x) k x
  | elem {a : Addr} {i : Nat} {o : Obj α} {k : Kind} {x : α} : mem[a]? = some (some o) → o.kind = k → Scalar k → o.cells[i]? = some (.raw (some x)) → NumberAt mem (.ref a i) k x
  | var {a : Addr} {i : Nat} {o : Obj α} {k : Kind} {x : α} : mem[a]? = some (some o) → o.kind = .var → Scalar k → o.cells[i]? = some (.var (.num k x)) →
      NumberAt mem (.ref a i) k x
  | value {a : Addr} {i : Nat} {o : Obj α} {key : V α} {k : Kind} {x : α} : mem[a]? = some (some o) → o.kind = .pair → Scalar k →
      o.cells[i]? = some (.pair key (.num k x)) → NumberAt mem (.ref a i) k x

/-- The expression is a number, or the name of a variable that is one. -/
inductive Operand (s : State α) : Exp α → Kind → α → Prop
  | num {j : Kind} {y : α} : Scalar j → Operand s (.num j y) j y
  | name {m : Nat} {w : V α} {j : Kind} {y : α} : s.stk[m]? = some w → NumberAt s.mem w j y → Operand s (.name m) j y

/-- The expression is a number, or the name of a variable that holds one itself. -/
inductive PlainOperand (s : State α) : Exp α → Kind → α → Prop
  | num {j : Kind} {y : α} : Scalar j → PlainOperand s (.num j y) j y
  | name {m : Nat} {j : Kind} {y : α} : s.stk[m]? = some (.num j y) → PlainOperand s (.name m) j y

/-- The var is nil: by itself, or as a reference to an element or the value of a key. -/
inductive NilAt (mem : List (Option (Obj α))) : V α → Prop
  | plain : NilAt mem .nil
  | var {a : Addr} {i : Nat} {o : Obj α} : mem[a]? = some (some o) → o.kind = .var → o.cells[i]? = some (.var .nil) → NilAt mem (.ref a i)
  | value {a : Addr} {i : Nat} {o : Obj α} {key : V α} : mem[a]? = some (some o) → o.kind = .pair → o.cells[i]? = some (.pair key .nil) → NilAt mem (.ref a i)

/-- Only element `i` of array `a` has changed, and of a pair only the value. -/
def OnlyElement (s s' : State α) (a : Addr) (i : Nat) : Prop :=
  s'.stk = s.stk ∧ Beside s s' [a] ∧ ∃ o o' : Obj α, s.mem[a]? = some (some o) ∧ s'.mem[a]? = some (some o') ∧ o'.kind = o.kind ∧ o'.size = o.size ∧
    (∀ l : Nat, l ≠ i → o'.cells[l]? = o.cells[l]?) ∧
    ∀ key u : V α, o.cells[i]? = some (.pair key u) → ∃ u' : V α, o'.cells[i]? = some (.pair key u')

/-- Only variable `n`, which holds `v`, has changed, or the element it refers to. -/
def OnlyTarget (s s' : State α) (n : Nat) (v : V α) : Prop :=
  match v with
  | .ref a i => OnlyElement s s' a i
  | _ => AllSame s s' ∧ s'.stk.length = s.stk.length ∧ ∀ l : Nat, l ≠ n → s'.stk[l]? = s.stk[l]?

end Libube.MemSpec

import Verif.Spec.MemArray

/-! # Specification of sharing and copying (C47, C48) and of the elements of arrays -/

namespace Libube.MemSpec

open Mem

/-- Variable `n` is an array of elements of type `k`, and they are `cs` (numbers, vars or pairs; a var that is
    an array is given by which array it is). -/
def Elems (s : State α) (n : Nat) (k : Kind) (cs : List (Cell α)) : Prop :=
  ∃ a o, s.stk[n]? = some (.arr a) ∧ s.mem[a]? = some (some o) ∧ o.kind = k ∧ o.size = cs.length ∧
    ∀ (i : Nat) (c : Cell α), cs[i]? = some c → o.cells[i]? = some c

/-- Two variables are the same array. -/
def SameArray (s : State α) (n m : Nat) : Prop := ∃ a, s.stk[n]? = some (.arr a) ∧ s.stk[m]? = some (.arr a)

/-- Two variables are two arrays. -/
def Distinct (s : State α) (n m : Nat) : Prop := ∃ a b, a ≠ b ∧ s.stk[n]? = some (.arr a) ∧ s.stk[m]? = some (.arr b)

/-- The statement ends, with an exception perhaps. -/
def Ends [Env α] (st : Stmt α) (s s' : State α) : Prop := run st s = .ok () s' ∨ ∃ e, run st s = .thrown e s'

/-- The expression applies a function with variable `n` for the result, or moves it. -/
def Writes (n : Nat) : Exp α → Prop
  | .mathTo _ _ _ m | .textTo _ _ _ m => m = n
  | .arithTo _ _ _ e m => m = n ∨ Writes n e
  | .move m => m = n
  | .key _ k | .atKey _ k | .arith _ _ _ k => Writes n k
  | _ => False

/-- The expressions of a statement. -/
def exps : Stmt α → List (Exp α)
  | .decl e | .assign _ e | .setElem _ _ e | .setAt _ _ e | .push _ e | .unshift _ e | .insert _ e _ | .appendVar _ e | .eval e => [e]
  | .setKey _ k e => [k, e]
  | _ => []

/-- The statement is no assignment to variable `n` as a whole, and applies no function with `n` for the result. -/
def Spares (n : Nat) (st : Stmt α) : Prop := (∀ e, st ≠ .assign n e) ∧ st ≠ .clear n ∧ ∀ e ∈ exps st, ¬ Writes n e

/-- Some statements later; variables `n` and `m` have not gone out of scope, and no other var has been assigned
    to them. -/
inductive Later [Env α] (n m : Nat) : State α → State α → Prop
  | here (s : State α) : Later n m s s
  | step {s s1 s2 : State α} {st : Stmt α} : Later n m s s1 → Spares n st → Spares m st → Ends st s1 s2 →
      n < s2.stk.length → m < s2.stk.length → Later n m s s2

/-- Expressions that change no array: literals, variables, elements read with `at`, with a key, or with a valid
    index, and copies. -/
def Quiet (s : State α) : Exp α → Prop
  | .nil | .num _ _ | .str _ | .name _ | .at _ _ | .top _ | .copy _ => True
  | .atKey _ k => Quiet s k
  | .elem n i => ∃ a o j, i = (j : Nat) ∧ s.stk[n]? = some (.arr a) ∧ s.mem[a]? = some (some o) ∧ j < o.size
  | _ => False

/-- Statements that work on the array of variable `n`. -/
inductive Through (n : Nat) (s : State α) : Stmt α → Prop
  | setElem (i : Int) (e : Exp α) : Quiet s e → Through n s (.setElem n i e)
  | setAt (i : Int) (e : Exp α) : Quiet s e → Through n s (.setAt n i e)
  | push (e : Exp α) : Quiet s e → Through n s (.push n e)
  | unshift (e : Exp α) : Quiet s e → Through n s (.unshift n e)
  | resize (k : Int) : Through n s (.resize n k)
  | pop : Through n s (.eval (.pop n))
  | shift : Through n s (.eval (.shift n))
  | remove (i : Nat) : Through n s (.eval (.remove n i))

end Libube.MemSpec

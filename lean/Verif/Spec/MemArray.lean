import Verif.Spec.Mem

/-! # Specification of arrays of numbers (C39–C44, C47–C50) -/

namespace Libube.MemSpec

open Mem

/-- Element types that are numbers. -/
def Number (k : Kind) : Prop := k ≠ .var ∧ k ≠ .pair

/-- Numbers that fit into a `var`; those of type `cdouble` do not. -/
def Scalar (k : Kind) : Prop := Number k ∧ k ≠ .cdouble

/-- Converting a number to the type it has changes nothing. -/
def ConvSame (α : Type) [Env α] : Prop := ∀ (k : Kind) (x : α), k ≠ .cdouble → Env.conv k k x = x

/-- An array of elements of type `k` whose elements are `xs`. -/
def Elements (o : Obj α) (k : Kind) (xs : List α) : Prop :=
  o.kind = k ∧ o.size = xs.length ∧ ∀ (i : Nat) (x : α), xs[i]? = some x → o.cells[i]? = some (.raw (some x))

/-- Variable `n` is an array of elements of type `k`, and they are `xs`. -/
def Contents (s : State α) (n : Nat) (k : Kind) (xs : List α) : Prop :=
  ∃ a o, s.stk[n]? = some (.arr a) ∧ s.mem[a]? = some (some o) ∧ Elements o k xs

/-- Variable `n` is a string with a NUL after its last character. -/
def Terminated [Env α] (s : State α) (n : Nat) : Prop :=
  ∃ a o, s.stk[n]? = some (.arr a) ∧ s.mem[a]? = some (some o) ∧ o.kind = .char ∧
    o.cells[o.size]? = some (.raw (some Env.nul))

/-- All variables, and all arrays but the one of variable `n`, are as they were. -/
def OnlyArray (s s' : State α) (n : Nat) : Prop :=
  s'.stk = s.stk ∧ ∀ a b, s.stk[n]? = some (.arr a) → b ≠ a → b < s.mem.length → s'.mem[b]? = s.mem[b]?

/-- All statements of a program run to their end, without exceptions. -/
def Runs [Env α] : List (Stmt α) → State α → State α → Prop
  | [], s, s' => s' = s
  | st :: sts, s, s' => ∃ s1, run st s = .ok () s1 ∧ Runs sts s1 s'

/-- Operations on an array. -/
inductive Op (α : Type) where
  | push (j : Kind) (x : α)
  | pop
  | shift
  | unshift (x : α)
  | insert (j : Kind) (x : α) (p : Nat)
  | insertStr (cs : List α) (p : Nat)
  | set (i : Nat) (j : Kind) (x : α)
  | remove (i : Nat)
  | truncate (m : Nat)
  | presize (m : Nat)
  | append (ys : List α)
  | appendVar (j : Kind) (x : α)
  | appendStr (cs : List α)

/-- As a statement about variable `n`, an array of elements of type `k`. -/
def Op.stmt (n : Nat) (k : Kind) : Op α → Stmt α
  | .push j x => .push n (.num j x)
  | .pop => .eval (.pop n)
  | .shift => .eval (.shift n)
  | .unshift x => .unshift n (.num k x)
  | .insert j x p => .insert n (.num j x) p
  | .insertStr cs p => .insert n (.str cs) p
  | .set i j x => .setElem n i (.num j x)
  | .remove i => .eval (.remove n i)
  | .truncate m => .resize n m
  | .presize m => .presize n m
  | .append ys => .append n k ys
  | .appendVar j x => .appendVar n (.num j x)
  | .appendStr cs => .appendVar n (.str cs)

/-- What it does to a list. -/
def Op.list [Env α] (k : Kind) : Op α → List α → List α
  | .push j x, xs => xs ++ [Env.conv j k x]
  | .pop, xs => xs.dropLast
  | .shift, xs => xs.tail
  | .unshift x, xs => x :: xs
  | .insert j x p, xs => xs.take p ++ [Env.conv j k x] ++ xs.drop p
  | .insertStr cs p, xs => xs.take p ++ cs.map (Env.conv .char k) ++ xs.drop p
  | .set i j x, xs => xs.set i (Env.conv j k x)
  | .remove i, xs => xs.eraseIdx i
  | .truncate m, xs => xs.take m
  | .presize _, xs => xs
  | .append ys, xs => xs ++ ys
  | .appendVar j x, xs => xs ++ [Env.conv j k x]
  | .appendStr cs, xs => xs ++ cs.map (Env.conv .char k)

/-- Indices are valid, and the values are numbers that fit into a `var`. -/
def Op.Valid : Op α → List α → Prop
  | .push j _, _ => Scalar j
  | .pop, xs => xs ≠ []
  | .shift, xs => xs ≠ []
  | .unshift _, _ => True
  | .insert j _ p, xs => Scalar j ∧ p ≤ xs.length
  | .insertStr _ p, xs => p ≤ xs.length
  | .set i j _, xs => Scalar j ∧ i < xs.length
  | .remove i, xs => i < xs.length
  | .truncate m, xs => m ≤ xs.length
  | .presize m, xs => xs.length ≤ m ∧ m + 2 ≤ 2 ^ 30
  | .append _, _ => True
  | .appendVar j _, _ => Scalar j
  | .appendStr _, _ => True

/-- One after the other, on a list. -/
def listOps [Env α] (k : Kind) : List (Op α) → List α → List α
  | [], xs => xs
  | p :: ps, xs => listOps k ps (p.list k xs)

/-- Sizes the library can represent. -/
def Fits (xs : List α) : Prop := xs.length + 2 ≤ 2 ^ 30

/-- All are valid when their turn comes, and the lists fit. -/
def ValidOps [Env α] (k : Kind) : List (Op α) → List α → Prop
  | [], xs => Fits xs
  | p :: ps, xs => Fits xs ∧ p.Valid xs ∧ ValidOps k ps (p.list k xs)

/-- Variable `m` reads as a number: it is one, or refers to one in an array. -/
def Shows (s : State α) (m : Nat) (k : Kind) (x : α) : Prop :=
  s.stk[m]? = some (.num k x) ∨
  ∃ a i o, s.stk[m]? = some (.ref a i) ∧ s.mem[a]? = some (some o) ∧ o.kind = k ∧
    o.cells[i]? = some (.raw (some x))

/-- Variable `n` is an array of elements of type `k`, of which there are `m`; some of them are given. -/
def Partly (s : State α) (n : Nat) (k : Kind) (m : Nat) (f : Nat → Option α) : Prop :=
  ∃ a o, s.stk[n]? = some (.arr a) ∧ s.mem[a]? = some (some o) ∧ o.kind = k ∧ o.size = m ∧
    ∀ i x, f i = some x → o.cells[i]? = some (.raw (some x))

/-- The arrays of two variables are different ones. -/
def Separate (s : State α) (n m : Nat) : Prop := ∀ a b, s.stk[n]? = some (.arr a) → s.stk[m]? = some (.arr b) → a ≠ b

end Libube.MemSpec

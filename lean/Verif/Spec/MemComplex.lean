import Verif.Spec.MemArray

/-! # Specification of arrays of complex numbers (C153) -/

namespace Libube.MemSpec

open Mem

/-- Operations on an array of `cdouble` that take and give whole numbers of this type. -/
inductive COp (α : Type) where
  | push (x : α)
  | pop
  | shift
  | unshift (x : α)
  | set (i : Nat) (x : α)
  | truncate (m : Nat)
  | presize (m : Nat)
  | append (ys : List α)

/-- The statement for variable `n`. -/
def COp.stmt (n : Nat) : COp α → Stmt α
  | .push x => .push n (.num .cdouble x)
  | .pop => .eval (.pop n)
  | .shift => .eval (.shift n)
  | .unshift x => .unshift n (.num .cdouble x)
  | .set i x => .setElem n i (.num .cdouble x)
  | .truncate m => .resize n m
  | .presize m => .presize n m
  | .append ys => .append n .cdouble ys

/-- What it does to a list. -/
def COp.list : COp α → List α → List α
  | .push x, xs => xs ++ [x]
  | .pop, xs => xs.dropLast
  | .shift, xs => xs.tail
  | .unshift x, xs => x :: xs
  | .set i x, xs => xs.set i x
  | .truncate m, xs => xs.take m
  | .presize _, xs => xs
  | .append ys, xs => xs ++ ys

/-- Indices are valid. -/
def COp.Valid : COp α → List α → Prop
  | .push _, _ => True
  | .pop, xs => xs ≠ []
  | .shift, xs => xs ≠ []
  | .unshift _, _ => True
  | .set i _, xs => i < xs.length
  | .truncate m, xs => m ≤ xs.length
  | .presize m, xs => xs.length ≤ m ∧ m + 2 ≤ 2 ^ 30
  | .append _, _ => True

/-- One after the other, on a list. -/
def clistOps : List (COp α) → List α → List α
  | [], xs => xs
  | p :: ps, xs => clistOps ps (p.list xs)

/-- All are valid when their turn comes, and the lists fit. -/
def CValidOps : List (COp α) → List α → Prop
  | [], xs => Fits xs
  | p :: ps, xs => Fits xs ∧ p.Valid xs ∧ CValidOps ps (p.list xs)

/-- The real part of a complex number, as a complex number. -/
def realOnly (z : Int × Int) : Int × Int := (z.1, 0)

end Libube.MemSpec

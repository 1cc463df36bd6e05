import Verif.Spec.MemShare

/-! # Specification of arrays of vars (C39–C41, C49) -/

namespace Libube.MemSpec

open Mem

/-- Variable `n` is an array of vars, and these are `vs` (a var that is an array is given by which array it is). -/
def Vars (s : State α) (n : Nat) (vs : List (V α)) : Prop := Elems s n .var (vs.map .var)

/-- The var is not a reference to an element. -/
def Plain (v : V α) : Prop := ∀ a i, v ≠ .ref a i

/-- Every array but that of variable `n` has the type, size and elements it had, or is gone; those that were gone
    stay so.  (Arrays something refers to are never gone: C45.) -/
def OthersSame (s s' : State α) (n : Nat) : Prop :=
  (∀ (b : Addr) (o : Obj α), s.stk[n]? ≠ some (.arr b) → s.mem[b]? = some (some o) →
    s'.mem[b]? = some none ∨
    ∃ o' : Obj α, s'.mem[b]? = some (some o') ∧ o'.kind = o.kind ∧ o'.size = o.size ∧ o'.cells = o.cells) ∧
  ∀ b : Addr, s.mem[b]? = some none → s'.mem[b]? = some none

/-- Values that can be put into the array of variable `n`: nil, numbers, strings, variables that are no
    references, and elements of other arrays of vars or numbers. -/
def Usable (s : State α) (n : Nat) : Exp α → Prop
  | .nil => True
  | .num k _ => Scalar k
  | .str cs => Fits cs
  | .name m => ∃ v, s.stk[m]? = some v ∧ Plain v
  | .elem m i => Distinct s n m ∧ ∃ j : Nat, i = j ∧
      ((∃ vs, Vars s m vs ∧ j < vs.length) ∨ ∃ k xs, Scalar k ∧ Contents s m k xs ∧ j < xs.length)
  | _ => False

/-- The var an expression stands for; `s` is the state before, `s'` one after.  A string is a new array. -/
def Yields (s s' : State α) : Exp α → V α → Prop
  | .nil, w => w = .nil
  | .num k x, w => w = .num k x
  | .str cs, w => ∃ b o, w = .arr b ∧ s.mem.length ≤ b ∧ s'.mem[b]? = some (some o) ∧ Elements o .char cs
  | .name m, w => s.stk[m]? = some w
  | .elem m i, w => ∃ j : Nat, i = j ∧
      ((∃ vs, Vars s m vs ∧ vs[j]? = some w) ∨ ∃ k xs x, Contents s m k xs ∧ xs[j]? = some x ∧ w = .num k x)
  | _, _ => False

/-- Variable `m` is the var `w`, or refers to an element that is. -/
def Denotes (s : State α) (m : Nat) (w : V α) : Prop :=
  (s.stk[m]? = some w ∧ Plain w) ∨
  ∃ a i o, s.stk[m]? = some (.ref a i) ∧ s.mem[a]? = some (some o) ∧ o.kind = .var ∧ o.cells[i]? = some (.var w)

/-- The var can be copied with `copy()`: if it is an array, it is not one of complex numbers, and its size is one
    the library can represent. -/
def Copyable (s : State α) (v : V α) : Prop := ∀ b, v = .arr b → ∃ o, s.mem[b]? = some (some o) ∧
  o.kind ≠ .cfloat ∧ o.kind ≠ .cdouble ∧ o.size + 2 ≤ 2 ^ 30

/-- Items of an array: nil, numbers, strings (by what they contain), what some variable is, or any var. -/
inductive Item (α : Type) where
  | nil
  | num (k : Kind) (x : α)
  | str (cs : List α)
  | name (m : Nat)
  | val (v : V α)
deriving DecidableEq

/-- The expression for an item. -/
def Item.exp : Item α → Exp α
  | .nil => .nil
  | .num k x => .num k x
  | .str cs => .str cs
  | .name m => .name m
  | .val _ => .nil

/-- There is one. -/
def Item.Writable (s : State α) : Item α → Prop
  | .nil => True
  | .num k _ => Scalar k
  | .str cs => Fits cs
  | .name m => ∃ v, s.stk[m]? = some v ∧ Plain v
  | .val _ => False

/-- The var `v` is the item. -/
def Item.Shown (s : State α) : Item α → V α → Prop
  | .nil, v => v = .nil
  | .num k x, v => v = .num k x
  | .str cs, v => ∃ b o, v = .arr b ∧ s.mem[b]? = some (some o) ∧ Elements o .char cs
  | .name m, v => s.stk[m]? = some v
  | .val u, v => v = u

/-- Variable `n` is an array of vars, and these are the items. -/
def Items (s : State α) (n : Nat) (its : List (Item α)) : Prop :=
  ∃ vs, Vars s n vs ∧ vs.length = its.length ∧ ∀ (i : Nat) (t : Item α) (v : V α), its[i]? = some t → vs[i]? = some v → t.Shown s v

/-- Operations on an array of vars. -/
inductive VOp (α : Type) where
  | push (t : Item α)
  | pop
  | shift
  | unshift (t : Item α)
  | insert (t : Item α) (p : Nat)
  | set (i : Nat) (t : Item α)
  | remove (i : Nat)
  | truncate (m : Nat)
  | append (t : Item α)
  | presize (m : Nat)

/-- As a statement about variable `n`. -/
def VOp.stmt (n : Nat) : VOp α → Stmt α
  | .push t => .push n t.exp
  | .pop => .eval (.pop n)
  | .shift => .eval (.shift n)
  | .unshift t => .unshift n t.exp
  | .insert t p => .insert n t.exp p
  | .set i t => .setElem n i t.exp
  | .remove i => .eval (.remove n i)
  | .truncate m => .resize n m
  | .append t => .appendVar n t.exp
  | .presize m => .presize n m

/-- What it does to a list. -/
def VOp.list : VOp α → List (Item α) → List (Item α)
  | .push t, its => its ++ [t]
  | .pop, its => its.dropLast
  | .shift, its => its.tail
  | .unshift t, its => t :: its
  | .insert t p, its => its.take p ++ t :: its.drop p
  | .set i t, its => its.set i t
  | .remove i, its => its.eraseIdx i
  | .truncate m, its => its.take m
  | .append t, its => its ++ [t]
  | .presize _, its => its

/-- Removing an item copies it. -/
def Item.Removable (s : State α) : Item α → Prop
  | .nil | .num _ _ => True
  | .str cs => Fits cs
  | .name m => ∀ v, s.stk[m]? = some v → Copyable s v
  | .val v => Copyable s v

/-- Indices are valid, items can be written, and removed ones copied. -/
def VOp.Valid (s : State α) : VOp α → List (Item α) → Prop
  | .push t, _ => t.Writable s
  | .pop, its => its ≠ []
  | .shift, its => its ≠ []
  | .unshift t, _ => t.Writable s
  | .insert t p, its => t.Writable s ∧ p ≤ its.length
  | .set i t, its => t.Writable s ∧ i < its.length
  | .remove i, its => ∃ t, its[i]? = some t ∧ t.Removable s
  | .truncate m, its => m ≤ its.length
  | .append t, _ => t.Writable s
  | .presize m, _ => m + 2 ≤ 2 ^ 30

/-- One after the other, on a list. -/
def itemOps : List (VOp α) → List (Item α) → List (Item α)
  | [], its => its
  | p :: ps, its => itemOps ps (p.list its)

/-- All are valid when their turn comes, and the lists fit. -/
def ValidItemOps (s : State α) : List (VOp α) → List (Item α) → Prop
  | [], its => Fits its
  | p :: ps, its => Fits its ∧ p.Valid s its ∧ ValidItemOps s ps (p.list its)

end Libube.MemSpec

import Verif.Model.MemProg
import Mathlib.Logic.Relation

/-! # Specification of memory management (C45, C46) -/

namespace Libube.MemSpec

open Mem

/-- A var refers to an array: it is the array or a reference into it. -/
def VTo (v : V α) (a : Addr) : Prop := v = .arr a ∨ ∃ i, v = .ref a i

/-- A place of an array refers to an array. -/
def CellTo (c : Cell α) (a : Addr) : Prop :=
  (∃ v, c = .var v ∧ VTo v a) ∨ ∃ k v, c = .pair k v ∧ (VTo k a ∨ VTo v a)

/-- The array is allocated. -/
def Allocated (s : State α) (a : Addr) : Prop := ∃ o, s.mem[a]? = some (some o)

/-- Some element of array `a` refers to array `b`. -/
def Points (s : State α) (a b : Addr) : Prop :=
  ∃ o, s.mem[a]? = some (some o) ∧ ∃ c ∈ o.cells, CellTo c b

/-- Some variable, or some element of an array that is allocated, refers to the array. -/
def Referred (s : State α) (a : Addr) : Prop := (∃ v ∈ s.stk, VTo v a) ∨ ∃ b, Points s b a

/-- The array contains itself, by way of others perhaps. -/
def OnCycle (s : State α) (a : Addr) : Prop := Relation.TransGen (Points s) a a

/-- The states a program can reach, exceptions caught or not. -/
inductive Reach [Env α] : State α → Prop
  | start : Reach ⟨[], []⟩
  | ok {s s' : State α} {st : Stmt α} : Reach s → run st s = .ok () s' → Reach s'
  | thrown {s s' : State α} {st : Stmt α} {e : Exn} : Reach s → run st s = .thrown e s' → Reach s'

/-- The states programs without `unshift` can reach, as long as no var refers to itself. -/
inductive ReachCareful [Env α] : State α → Prop
  | start : ReachCareful ⟨[], []⟩
  | ok {s s' : State α} {st : Stmt α} : ReachCareful s → (∀ n e, st ≠ .unshift n e) →
      run st s = .ok () s' → ReachCareful s'
  | thrown {s s' : State α} {st : Stmt α} {e : Exn} : ReachCareful s → (∀ n e, st ≠ .unshift n e) →
      e ≠ .error "var::dereference(): Unknown type" → run st s = .thrown e s' → ReachCareful s'

end Libube.MemSpec

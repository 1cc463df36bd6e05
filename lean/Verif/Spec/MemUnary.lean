import Verif.Spec.MemAssign
import Verif.Model.MemUnary

/-! # Specification of functions applied to every element (C65, C97) -/

namespace Libube.MemSpec

open Mem

/-- Nested data: a number, an array of numbers, an array of vars, a map with its keys. -/
inductive Nested (α : Type) where
  | num (k : Kind) (x : α)
  | nums (k : Kind) (xs : List α)
  | list (ts : List (Nested α))
  | map (ks : List (V α)) (ts : List (Nested α))

/-- How deep arrays are nested. -/
def Nested.depth : Nested α → Nat
  | .num _ _ => 1
  | .nums _ _ => 2
  | .list ts => (ts.attach.map fun t => t.1.depth).foldr max 0 + 1
  | .map _ ts => (ts.attach.map fun t => t.1.depth).foldr max 0 + 1
termination_by t => sizeOf t
decreasing_by
  all_goals
    have := List.sizeOf_lt_of_mem t.2
    simp only [Nested.list.sizeOf_spec, Nested.map.sizeOf_spec]
    omega

/-- The numbers changed, all else kept: `f` gives the type and value of a result; in an array of numbers
    it is converted to the type of the array. -/
def Nested.mapNums (f : Kind → α → Kind × α) (conv : Kind → Kind → α → α) : Nested α → Nested α
  | .num k x => .num (f k x).1 (f k x).2
  | .nums k xs => .nums k (xs.map fun x => conv (f k x).1 k (f k x).2)
  | .list ts => .list (ts.attach.map fun t => t.1.mapNums f conv)
  | .map ks ts => .map ks (ts.attach.map fun t => t.1.mapNums f conv)
termination_by t => sizeOf t
decreasing_by
  all_goals
    have := List.sizeOf_lt_of_mem t.2
    simp only [Nested.list.sizeOf_spec, Nested.map.sizeOf_spec]
    omega

/-- All numbers there are satisfy `P`, the element types of all arrays of numbers `A`. -/
inductive Nested.All (P : Kind → α → Prop) (A : Kind → Prop) : Nested α → Prop
  | num {k : Kind} {x : α} : P k x → (Nested.num k x).All P A
  | nums {k : Kind} {xs : List α} : A k → (∀ x ∈ xs, P k x) → (Nested.nums k xs).All P A
  | list {ts : List (Nested α)} : (∀ t ∈ ts, t.All P A) → (Nested.list ts).All P A
  | map {ks : List (V α)} {ts : List (Nested α)} : (∀ t ∈ ts, t.All P A) → (Nested.map ks ts).All P A

/-- The var shows the data; the arrays it consists of are listed, once for every place where they are. -/
inductive IsTree (mem : List (Option (Obj α))) : V α → Nested α → List Addr → Prop
  | num {k : Kind} {x : α} : Scalar k → IsTree mem (.num k x) (.num k x) []
  | nums {a : Addr} {o : Obj α} {k : Kind} {xs : List α} : mem[a]? = some (some o) → Number k → Elements o k xs → IsTree mem (.arr a) (.nums k xs) [a]
  | list {a : Addr} {o : Obj α} {vs : List (V α)} {ts : List (Nested α)} {fs : List (List Addr)} : mem[a]? = some (some o) → o.kind = .var → o.size = ts.length →
      vs.length = ts.length → fs.length = ts.length → (∀ (i : Nat) (v : V α), vs[i]? = some v → o.cells[i]? = some (.var v)) →
      (∀ (i : Nat) (v : V α) (t : Nested α) (f : List Addr), vs[i]? = some v → ts[i]? = some t → fs[i]? = some f → IsTree mem v t f) →
      IsTree mem (.arr a) (.list ts) (a :: fs.flatten)
  | map {a : Addr} {o : Obj α} {ks vs : List (V α)} {ts : List (Nested α)} {fs : List (List Addr)} : mem[a]? = some (some o) → o.kind = .pair → o.size = ts.length →
      ks.length = ts.length → vs.length = ts.length → fs.length = ts.length →
      (∀ (i : Nat) (k v : V α), ks[i]? = some k → vs[i]? = some v → o.cells[i]? = some (.pair k v)) →
      (∀ (i : Nat) (v : V α) (t : Nested α) (f : List Addr), vs[i]? = some v → ts[i]? = some t → fs[i]? = some f → IsTree mem v t f) →
      IsTree mem (.arr a) (.map ks ts) (a :: fs.flatten)

/-- The function can be applied to the number, and the result fits into a `var`. -/
def Applies (F : Fn α) (k : Kind) (x : α) : Prop := F.takes k = true ∧ Scalar (F.f k x).1

/-- All arrays that are still there, but those listed, are as they were. -/
def Beside (s s' : State α) (fp : List Addr) : Prop :=
  (∀ (b : Addr) (o : Obj α), b ∉ fp → s.mem[b]? = some (some o) → s'.mem[b]? = some none ∨
    ∃ o' : Obj α, s'.mem[b]? = some (some o') ∧ o'.kind = o.kind ∧ o'.size = o.size ∧ o'.cells = o.cells) ∧
  ∀ b : Addr, s.mem[b]? = some none → s'.mem[b]? = some none

end Libube.MemSpec

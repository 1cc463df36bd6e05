import Verif.Spec.MemUnary
import Verif.Model.MemString

/-! # Specification of string functions on nested data (C120 – C123) -/

namespace Libube.MemSpec

open Mem

/-- Strings only, nested in arrays and maps; every string satisfies `P`. -/
inductive Nested.Strings (P : List α → Prop) : Nested α → Prop
  | str {xs : List α} : P xs → (Nested.nums .char xs).Strings P
  | list {ts : List (Nested α)} : (∀ t ∈ ts, t.Strings P) → (Nested.list ts).Strings P
  | map {ks : List (V α)} {ts : List (Nested α)} : (∀ t ∈ ts, t.Strings P) → (Nested.map ks ts).Strings P

/-- Every string replaced, all else kept. -/
def Nested.mapText (g : List α → List α) : Nested α → Nested α
  | .num k x => .num k x
  | .nums k xs => .nums k (if k = .char then g xs else xs)
  | .list ts => .list (ts.attach.map fun t => t.1.mapText g)
  | .map ks ts => .map ks (ts.attach.map fun t => t.1.mapText g)
termination_by t => sizeOf t
decreasing_by
  all_goals
    have := List.sizeOf_lt_of_mem t.2
    simp only [Nested.list.sizeOf_spec, Nested.map.sizeOf_spec]
    omega

/-- Variable `n` stands for var `w`: it holds it, or it refers to an element that does. -/
inductive Stands (s : State α) (n : Nat) (w : V α) : Prop
  | var : s.stk[n]? = some w → Stands s n w
  | elem {a : Addr} {i : Nat} {o : Obj α} : s.stk[n]? = some (.ref a i) → s.mem[a]? = some (some o) → o.cells[i]? = some (.var w) → Stands s n w
  | value {a : Addr} {i : Nat} {o : Obj α} {k : V α} : s.stk[n]? = some (.ref a i) → s.mem[a]? = some (some o) → o.cells[i]? = some (.pair k w) → Stands s n w

/-- Arrays that were not there before. -/
def New (s : State α) (fp : List Addr) : Prop := ∀ b ∈ fp, s.mem.length ≤ b

/-- A text without what is space in front and at the end. -/
def trim (sp : α → Bool) (xs : List α) : List α := ((xs.dropWhile sp).reverse.dropWhile sp).reverse

/-- Not only space. -/
def Inked (sp : α → Bool) (xs : List α) : Prop := xs = [] ∨ ∃ x ∈ xs, sp x = false

/-- If variable `n` is a reference into an array, another variable is that array or a reference into it. -/
def Held (s : State α) (n : Nat) : Prop :=
  ∀ b i, s.stk[n]? = some (.ref b i) → ∃ m, m ≠ n ∧ (s.stk[m]? = some (.arr b) ∨ ∃ j, s.stk[m]? = some (.ref b j))

end Libube.MemSpec

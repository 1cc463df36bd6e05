import Verif.Spec.MemArray
import Verif.Model.MemPrint
import Mathlib.Logic.Relation

/-! # Specification of printing (C168) -/

namespace Libube.MemSpec

open Mem CString

/-- Data that can be printed: nil, a number, a string up to its NUL, an array of numbers, complex numbers of double precision with the place
    where they are, an array of vars, a map as its keys and values. -/
inductive Data (α : Type) where
  | nil
  | num (k : Kind) (x : α)
  | str (xs : List α)
  | nums (k : Kind) (xs : List α)
  | cplx (a : Addr) (xs : List α)
  | list (ds : List (Data α))
  | map (ds : List (Data α × Data α))

/-- How deep it is nested. -/
def Data.depth : Data α → Nat
  | .nil => 1
  | .num _ _ => 1
  | .str _ => 1
  | .nums _ [] => 1
  | .nums _ (_ :: _) => 2
  | .cplx _ _ => 1
  | .list ds => (ds.attach.map fun d => d.1.depth).foldr max 0 + 1
  | .map ds => (ds.attach.map fun d => max d.1.1.depth d.1.2.depth).foldr max 0 + 1
termination_by d => sizeOf d
decreasing_by
  · have := List.sizeOf_lt_of_mem d.2
    simp only [Data.list.sizeOf_spec]
    omega
  all_goals
    have := List.sizeOf_lt_of_mem d.2
    have : sizeOf d.1 = 1 + sizeOf d.1.1 + sizeOf d.1.2 := rfl
    simp only [Data.map.sizeOf_spec]
    omega

/-- The var is the data.  Every array in it is one of the vars, and nothing is said about how many vars share it. -/
inductive IsData [Env α] (mem : List (Option (Obj α))) : V α → Data α → Prop
  | nil : IsData mem .nil .nil
  | num {k : Kind} {x : α} : Scalar k → IsData mem (.num k x) (.num k x)
  | str {a : Addr} {o : Obj α} {xs : List α} : mem[a]? = some (some o) → o.kind = .char → (∀ x ∈ xs, x ≠ Env.nul) →
      (∀ (i : Nat) (x : α), (xs ++ [Env.nul])[i]? = some x → o.cells[i]? = some (.raw (some x))) → IsData mem (.arr a) (.str xs)
  | nums {a : Addr} {o : Obj α} {k : Kind} {xs : List α} : mem[a]? = some (some o) → Scalar k → k ≠ .char → Elements o k xs →
      IsData mem (.arr a) (.nums k xs)
  | cplx {a : Addr} {o : Obj α} {xs : List α} : mem[a]? = some (some o) → Elements o .cdouble xs → IsData mem (.arr a) (.cplx a xs)
  | list {a : Addr} {o : Obj α} {ds : List (Data α)} {v : Nat → V α} : mem[a]? = some (some o) → o.kind = .var → o.size = ds.length →
      (∀ i : Nat, i < ds.length → o.cells[i]? = some (.var (v i))) → (∀ (i : Nat) (d : Data α), ds[i]? = some d → IsData mem (v i) d) →
      IsData mem (.arr a) (.list ds)
  | map {a : Addr} {o : Obj α} {ds : List (Data α × Data α)} {u v : Nat → V α} : mem[a]? = some (some o) → o.kind = .pair → o.size = ds.length →
      (∀ i : Nat, i < ds.length → o.cells[i]? = some (.pair (u i) (v i))) → (∀ (i : Nat) (d : Data α × Data α), ds[i]? = some d → IsData mem (u i) d.1) →
      (∀ (i : Nat) (d : Data α × Data α), ds[i]? = some d → IsData mem (v i) d.2) → IsData mem (.arr a) (.map ds)

/-- The var is `w`, or it refers to an element that is. -/
def StandsFor (mem : List (Option (Obj α))) (v w : V α) : Prop :=
  (v = w ∧ ∀ a i, w ≠ .ref a i) ∨
  ∃ a i o, v = .ref a i ∧ mem[a]? = some (some o) ∧
    ((o.kind = .var ∧ o.cells[i]? = some (.var w)) ∨ (o.kind = .pair ∧ ∃ k, o.cells[i]? = some (.pair k w)) ∨
      ∃ x, Scalar o.kind ∧ o.cells[i]? = some (.raw (some x)) ∧ w = .num o.kind x)

/-- Variable `m` is the data, or refers to it. -/
def IsShown [Env α] (s : State α) (m : Nat) (d : Data α) : Prop :=
  ∃ v w, s.stk[m]? = some v ∧ StandsFor s.mem v w ∧ IsData s.mem w d

/-- The first array has the second as one of its elements. -/
def Within (mem : List (Option (Obj α))) (a b : Addr) : Prop :=
  ∃ o i, mem[a]? = some (some o) ∧ i < o.size ∧
    ((o.kind = .var ∧ o.cells[i]? = some (.var (.arr b))) ∨
      (o.kind = .pair ∧ ∃ u v, o.cells[i]? = some (.pair u v) ∧ (u = .arr b ∨ v = .arr b)))

/-- A var that is nil, a number or one of the arrays `S`. -/
def FineVar (S : Addr → Prop) : V α → Prop
  | .nil => True
  | .num k _ => Scalar k
  | .arr a => S a
  | _ => False

/-- The elements of an array are there, and those that are vars are nil, numbers or arrays of `S`. -/
def FineObj [Env α] (S : Addr → Prop) (o : Obj α) : Prop :=
  (o.kind = .var → ∀ i < o.size, ∃ v, o.cells[i]? = some (.var v) ∧ FineVar S v) ∧
  (o.kind = .pair → ∀ i < o.size, ∃ u v, o.cells[i]? = some (.pair u v) ∧ FineVar S u ∧ FineVar S v) ∧
  (o.kind = .char → ∃ xs : List α, (∀ x ∈ xs, x ≠ Env.nul) ∧
    ∀ (i : Nat) (x : α), (xs ++ [Env.nul])[i]? = some x → o.cells[i]? = some (.raw (some x))) ∧
  (Number o.kind → o.kind ≠ .char → ∃ xs, Elements o o.kind xs)

/-- The arrays `S` are there and refer to one another only; there may be cycles. -/
def Fine [Env α] (mem : List (Option (Obj α))) (S : Addr → Prop) : Prop := ∀ a, S a → ∃ o, mem[a]? = some (some o) ∧ FineObj S o

/-- The texts with `sep` between them. -/
def joined (sep : Bytes) : List Bytes → Bytes
  | [] => []
  | [t] => t
  | t :: u :: ts => t ++ sep ++ joined sep (u :: ts)

/-- A new line and `n` blanks. -/
def line (n : Nat) : Bytes := 10 :: List.replicate n 32

/-- Lines between brackets, indented and with commas between them. -/
def block (ind : Nat) (ts : List Bytes) : Bytes :=
  [91] ++ joined [44] (ts.map fun t => line (ind + 2) ++ t) ++ line ind ++ [93]

/-- The text at an indentation. -/
def Data.text (p : Printer α) (ind : Nat) : Data α → Bytes
  | .nil => [110, 117, 108, 108]
  | .num .char x => [39] ++ p.num .char x ++ [39]
  | .num k x => p.num k x
  | .str xs => [34] ++ xs.flatMap (p.num .char) ++ [34]
  | .nums k xs => [91] ++ joined [44, 32] (xs.map (p.num k)) ++ [93]
  | .cplx _ [x] => p.num .cdouble x
  | .cplx a xs => block ind ((List.range xs.length).map (p.ptr a))
  | .list ds => block ind (ds.attach.map fun d => d.1.text p (ind + 2))
  | .map [] => [123, 125]
  | .map (c :: ds) => [123] ++ joined [44] ((c :: ds).attach.map fun d => line (ind + 2) ++ d.1.1.text p 0 ++ [58, 32] ++ d.1.2.text p (ind + 2)) ++
      line ind ++ [125]
termination_by d => sizeOf d
decreasing_by
  · have := List.sizeOf_lt_of_mem d.2
    simp only [Data.list.sizeOf_spec]
    omega
  all_goals
    have := List.sizeOf_lt_of_mem d.2
    have : sizeOf d.1 = 1 + sizeOf d.1.1 + sizeOf d.1.2 := rfl
    simp only [Data.map.sizeOf_spec]
    omega

end Libube.MemSpec

import Verif.Spec.Rows
import Mathlib.Order.Defs.LinearOrder

/-! # Specification of asum, iamax, sort and concatenate (C101–C104) -/

namespace Libube.ReduceSpec

open View

/-- The `row.length` elements from position `p` on are those of `row`. -/
def RowAt (d : List α) (p : Nat) (row : List α) : Prop := ∀ t, t < row.length → d[p + t]? = row[t]?

/-- `i` is the first of the positions at which `mag` is largest. -/
def FirstLargest [LinearOrder β] (mag : α → β) (row : List α) (i : Nat) : Prop :=
  ∃ x, row[i]? = some x ∧ (∀ y ∈ row, mag y ≤ mag x) ∧ ∀ (j : Nat) (y : α), j < i → row[j]? = some y → mag y < mag x

/-- `d'` is `d` with the `n` rows of `c` elements from `p` on sorted, each by itself; nothing else has changed. -/
def SortedRows [LinearOrder α] (d d' : List α) (p n c : Nat) : Prop :=
  d'.length = d.length ∧ (∀ k, k < p ∨ p + n * c ≤ k → d'[k]? = d[k]?) ∧
    ∀ i row, i < n → row.length = c → RowAt d (p + c * i) row →
      ∃ row', List.Perm row' row ∧ List.Pairwise (· ≤ ·) row' ∧ RowAt d' (p + c * i) row'

/-- An operand: an array with leading dimensions `lead` and rows of `c` elements, which starts at element `o` of its storage. -/
def Operand (lead : List Int) (x : Kind × Arr α) (o c : Nat) : Prop := RowsSpec.Shaped x.2 o (lead ++ [(c : Int)])

/-- The rows number `i` of the operands `xs`, which start at `os` and have rows of `cs` elements. -/
def RowsOf (i : Nat) : List (Kind × Arr α) → List Nat → List Nat → List (List α) → Prop
  | [], [], [], [] => True
  | x :: xs, o :: os, c :: cs, r :: rs => (r.length = c ∧ RowAt x.2.data (o + c * i) r) ∧ RowsOf i xs os cs rs
  | _, _, _, _ => False

/-- All are operands. -/
def Operands (lead : List Int) : List (Kind × Arr α) → List Nat → List Nat → Prop
  | [], [], [] => True
  | x :: xs, o :: os, c :: cs => Operand lead x o c ∧ Operands lead xs os cs
  | _, _, _ => False

end Libube.ReduceSpec

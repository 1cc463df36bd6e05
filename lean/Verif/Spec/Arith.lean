import Verif.Model.Arith

/-! # Specification of array arithmetic (C55, C61-C64, C81) -/

namespace Libube.ArithSpec

open Arith

/-- The element at a location of memory. -/
def At (m : Mem α) (h p : Nat) (x : α) : Prop := ∃ D, m[h]? = some D ∧ D[p]? = some x

/-- `m'` is `m`, except that the `n` elements of heap `h` from `p` on have become `v 0`, `v 1`, … -/
def Updated (m m' : Mem α) (h p n : Nat) (v : Nat → α) : Prop :=
  (∀ k, k ≠ h → m'[k]? = m[k]?) ∧
  ∃ D D', m[h]? = some D ∧ m'[h]? = some D' ∧ D'.length = D.length ∧
    (∀ i, i < n → D'[p + i]? = some (v i)) ∧ ∀ k, k < p ∨ p + n ≤ k → D'[k]? = D[k]?

/-- A var that holds an array of shape `sh` starting at element `o` of its storage: either all of
    the storage, or a view made of it. -/
inductive IsArr (m : Mem α) (a : Ref) : Nat → List Int → Prop
  | plain (d : List α) (hd : m[a.heap]? = some d) (hl : (d.length : Int) < 2 ^ 31) (hi : a.ip = none) :
      IsArr m a 0 [(d.length : Int)]
  | view (d : List α) (hd : m[a.heap]? = some d) (hl : (d.length : Int) < 2 ^ 31) (o : Nat) (sh : List Int)
      (hv : View.view ⟨d, none⟩ sh o = .ok ⟨d, a.ip⟩) : IsArr m a o sh

/-- `m'` is `m` with the `n` elements from `(ha, p)` on and those from `(hb, q)` on exchanged. -/
def Exchanged (m m' : Mem α) (ha p hb q n : Nat) : Prop :=
  (∀ i, i < n → ∀ z, At m' ha (p + i) z ↔ At m hb (q + i) z) ∧
  (∀ i, i < n → ∀ z, At m' hb (q + i) z ↔ At m ha (p + i) z) ∧
  ∀ h k, ¬ (h = ha ∧ p ≤ k ∧ k < p + n) → ¬ (h = hb ∧ q ≤ k ∧ k < q + n) → ∀ z, At m' h k z ↔ At m h k z

/-- The operations and element types that exist for pairs of arrays. -/
def Supported : Fn → Num → Prop
  | .add, k => k = .float ∨ k = .double ∨ k = .cfloat
  | .set, k | .sub, k | .mul, k => k = .float ∨ k = .double
  | .div, _ => False

end Libube.ArithSpec

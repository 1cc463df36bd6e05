import Verif.Model.Rows

/-! # Specification of functors along the last dimension (C59, C60, C66) -/

namespace Libube.RowsSpec

open View

/-- `d'` is `d`, except that the `n` elements from `p` on have become `v 0`, `v 1`, … -/
def Wrote (d d' : List α) (p n : Nat) (v : Nat → α) : Prop :=
  d'.length = d.length ∧ (∀ j, j < n → d'[p + j]? = some (v j)) ∧ ∀ k, k < p ∨ p + n ≤ k → d'[k]? = d[k]?

/-- An array of shape `sh` starting at element `o` of its storage: all of it, or a view of it. -/
inductive Shaped (a : Arr α) : Nat → List Int → Prop
  | plain (hi : a.ip = none) (hl : (a.data.length : Int) < 2 ^ 31) : Shaped a 0 [(a.data.length : Int)]
  | view (o : Nat) (sh : List Int) (hv : View.view ⟨a.data, none⟩ sh o = .ok a) (hl : (a.data.length : Int) < 2 ^ 31) :
      Shaped a o sh

/-- `out` is a new array of shape `sh` with elements `d`. -/
def NewArray (out : Arr α) (sh : List Int) (d : List α) : Prop := View.view ⟨d, none⟩ sh 0 = .ok out ∧ (d.length : Int) = sh.prod

end Libube.RowsSpec

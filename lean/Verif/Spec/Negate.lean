import Verif.Spec.Arith

/-! # Specification of unary minus (C176) -/

namespace Libube.ArithSpec

open Arith

/-- Every element of every heap of `m` is still there in `m'`. -/
def Extends (m m' : Mem α) : Prop := ∀ (h : Nat) (D : List α), m[h]? = some D → m'[h]? = some D

/-- `a` holds an array of shape `sh` from element `o` of its storage on, with the `n` elements `x 0`, `x 1`, … -/
def HoldsArr (m : Mem α) (a : Ref) (o : Nat) (sh : List Int) (n : Nat) (x : Nat → α) : Prop :=
  IsArr m a o sh ∧ sh.prod = n ∧ ∀ i, i < n → At m a.heap (o + i) (x i)

end Libube.ArithSpec

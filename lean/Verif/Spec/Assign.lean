import Verif.Spec.Arith

/-! # Specification of the assigning operators (C180) -/

namespace Libube.ArithSpec

open Arith

/-- The `n` elements from `p` on of heap `h` of `m` exist and are those of heap `h'` of `m'` from `p` on. -/
def SameElems (m : Mem α) (h : Nat) (m' : Mem α) (h' p n : Nat) : Prop :=
  ∀ i, i < n → ∃ z, At m h (p + i) z ∧ At m' h' (p + i) z

end Libube.ArithSpec

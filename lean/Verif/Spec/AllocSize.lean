import Mathlib.Algebra.Order.Ring.Int

/-! # Specification of array capacities (C02) -/

namespace Libube.Alloc

/-- Specification: `c` is the least power of two that is at least `n` and at least 8. -/
def LeastPow2 (n c : Int) : Prop :=
  (∃ k : Nat, c = 2 ^ k) ∧ n ≤ c ∧ 8 ≤ c ∧ ∀ k : Nat, n ≤ (2 : Int) ^ k → 8 ≤ (2 : Int) ^ k → c ≤ 2 ^ k

/-- Number of elements a resize to `n` has to make room for: a string needs one more for its
    terminating NUL. -/
def room (isChar : Bool) (n : Int) : Int := if isChar then n + 1 else n

/-- Largest room needed in a resize history (0 for the empty one). -/
def maxRoom (isChar : Bool) (ns : List Int) : Int := ns.foldl (fun m n => max m (room isChar n)) 0

end Libube.Alloc

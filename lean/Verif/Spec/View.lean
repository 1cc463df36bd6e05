import Mathlib.Algebra.BigOperators.Group.List.Basic
import Mathlib.Algebra.Ring.Int.Defs

/-! # Specification of views (C51-C54, C80): shapes and row-major positions -/

namespace Libube.ViewSpec

/-- A multi-index is in range for a shape: as many components as dimensions, each not negative
    and less than its dimension. -/
def InRange : List Int → List Int → Prop
  | [], [] => True
  | d :: ds, i :: is => 0 ≤ i ∧ i < d ∧ InRange ds is
  | _, _ => False

/-- Row-major position: each component times the product of the later dimensions. -/
def pos : List Int → List Int → Int
  | _ :: ds, i :: is => i * ds.prod + pos ds is
  | _, _ => 0

/-- The products of the trailing dimensions fit in an `int`. -/
def Fits : List Int → Prop
  | [] => True
  | d :: ds => (-2 ^ 31 ≤ (d :: ds).prod ∧ (d :: ds).prod < 2 ^ 31) ∧ Fits ds

instance decInRange : (s is : List Int) → Decidable (InRange s is)
  | [], [] => isTrue trivial
  | d :: ds, i :: is =>
    have := decInRange ds is
    inferInstanceAs (Decidable (0 ≤ i ∧ i < d ∧ InRange ds is))
  | [], _ :: _ => isFalse id
  | _ :: _, [] => isFalse id

instance decFits : (s : List Int) → Decidable (Fits s)
  | [] => isTrue trivial
  | d :: ds =>
    have := decFits ds
    inferInstanceAs (Decidable ((-2 ^ 31 ≤ (d :: ds).prod ∧ (d :: ds).prod < 2 ^ 31) ∧ Fits ds))

end Libube.ViewSpec

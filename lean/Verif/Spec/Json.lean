import Mathlib.Data.List.Forall2
import Verif.Spec.Order

/-! # Specification of JSON round trips (C20-C24) -/

namespace Libube.JsonSpec

open Libube

/-- Text that needs no escaping: no NUL, quotation mark or backslash. -/
def Clean (s : List UInt8) : Prop := 0 ∉ s ∧ 34 ∉ s ∧ 92 ∉ s

instance (s : List UInt8) : Decidable (Clean s) := by unfold Clean; infer_instance

/-- Integers of either width. -/
def IsInteger : Val → Prop
  | .int _ => True
  | .long _ => True
  | _ => False

/-- The same data, up to the width of integers and the storage of arrays of integers. -/
inductive Same : Val → Val → Prop
  | nil : Same .nil .nil
  | chars (s) : Same (.chars s) (.chars s)
  | long (l) : Same (.long l) (.long l)
  | int (i : BitVec 32) (l : BitVec 64) : i.toInt = l.toInt → Same (.int i) (.long l)
  | arr (xs ys) : List.Forall₂ Same xs ys → Same (.arr xs) (.arr ys)
  | longs (xs ys) : List.Forall₂ Same xs (ys.map Val.long) → Same (.arr xs) (.longs ys)
  | map (ps qs : List (Val × Val)) : ps.map Prod.fst = qs.map Prod.fst →
      List.Forall₂ Same (ps.map Prod.snd) (qs.map Prod.snd) → Same (.map ps) (.map qs)

/-- Values for which the round trip is claimed to work: nil, integers, strings without special
    characters; non-empty arrays of vars that begin with a non-number or consist of at least two
    integers; maps with such strings as keys, in ascending order. -/
inductive Good : Val → Prop
  | nil : Good .nil
  | int (i) : Good (.int i)
  | long (l) : Good (.long l)
  | chars (s) : Clean s → Good (.chars s)
  | arr (x xs) : ¬ IsInteger x → (∀ y ∈ x :: xs, Good y) → Good (.arr (x :: xs))
  | ints (x y xs) : (∀ z ∈ x :: y :: xs, IsInteger z) → Good (.arr (x :: y :: xs))
  | map (ps) : (∀ p ∈ ps, ∃ s, p.1 = .chars s ∧ Clean s) →
      ps.Pairwise (fun p q => OrderSpec.KeyLt p.1 q.1) → (∀ p ∈ ps, Good p.2) → Good (.map ps)

end Libube.JsonSpec

namespace Libube.JsonSpec

open Libube

/-- The number written by decimal digits. -/
def number (ds : List Nat) : Nat := ds.foldl (fun a d => 10 * a + d) 0

/-- The characters of decimal digits. -/
def digitText (ds : List Nat) : List UInt8 := ds.map (fun d => UInt8.ofNat (48 + d))

/-- A list of decimal digits, not empty; leading zeros are allowed. -/
def Digits (ds : List Nat) : Prop := ds ≠ [] ∧ ∀ d ∈ ds, d < 10

/-- `t` is a decimal numeral for `i`: digits with an optional minus sign. -/
def Numeral (t : List UInt8) (i : Int) : Prop :=
  ∃ ds, Digits ds ∧ ((t = digitText ds ∧ i = number ds) ∨ (t = 45 :: digitText ds ∧ i = -(number ds : Int)))

/-- Numbers of 64 bits. -/
def Fits (i : Int) : Prop := -2 ^ 63 ≤ i ∧ i < 2 ^ 63

instance (i : Int) : Decidable (Fits i) := by unfold Fits; infer_instance

/-- The texts of the elements of an array in standard notation: separated by comma and blank. -/
def listText : List (List UInt8) → List UInt8
  | [] => []
  | [t] => t
  | t :: u :: ts => t ++ [44, 32] ++ listText (u :: ts)

/-- The text of the members of an object, separated by commas. -/
def memberText : List (List UInt8 × List UInt8) → List UInt8
  | [] => []
  | [(k, t)] => 34 :: k ++ [34, 58] ++ t
  | (k, t) :: m :: ms => 34 :: k ++ [34, 58] ++ t ++ [44] ++ memberText (m :: ms)

/-- A string with each quotation mark preceded by a backslash. -/
def escaped : List UInt8 → List UInt8
  | [] => []
  | c :: s => (if c = 34 then [92, 34] else [c]) ++ escaped s

/-- The three words with a meaning: `true`, `false`, `null`. -/
def words : List (List UInt8 × Val) :=
  [([116, 114, 117, 101], .int 1), ([102, 97, 108, 115, 101], .int 0), ([110, 117, 108, 108], .nil)]

end Libube.JsonSpec

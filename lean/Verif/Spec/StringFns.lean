/-! # Specifications for string functions (C05-C13), independent of the model -/

namespace Libube.StringSpec

/-- `sep` occurs in `s`. -/
def Contains (s sep : List UInt8) : Prop := ∃ a b, s = a ++ sep ++ b

/-- `s` splits at its first occurrence of `sep` into `p` and `rest`. -/
def FirstAt (s sep p rest : List UInt8) : Prop :=
  s = p ++ sep ++ rest ∧ ∀ a b, s = a ++ sep ++ b → p.length ≤ a.length

/-- `pieces` is the result of cutting `s` at the first, second, ... non-overlapping
    occurrence of `sep`, at most `cuts` times (`none`: without limit). -/
inductive Splits (sep : List UInt8) : Option Nat → List UInt8 → List (List UInt8) → Prop
  | whole (cuts s) : ¬ Contains s sep → Splits sep cuts s [s]
  | limit (s) : Splits sep (some 0) s [s]
  | cut (cuts : Option Nat) (s p rest : List UInt8) (ps : List (List UInt8)) :
      cuts ≠ some 0 → FirstAt s sep p rest → Splits sep (cuts.map (· - 1)) rest ps →
      Splits sep cuts s (p :: ps)

/-- the six white space characters of the C locale: space, \t \n \v \f \r -/
def IsSpace (b : UInt8) : Prop := b.toNat = 32 ∨ (9 ≤ b.toNat ∧ b.toNat ≤ 13)

instance (b : UInt8) : Decidable (IsSpace b) := by unfold IsSpace; infer_instance

/-- `ws` are the maximal runs of non-space characters of `s`, in order; after `limit` words
    (`none`: no limit) the remaining text from its first non-space character on is returned
    as one last piece. -/
inductive WordsMax : Option Nat → List UInt8 → List (List UInt8) → Prop
  | none (limit s) : (∀ b ∈ s, IsSpace b) → WordsMax limit s []
  | limit (sp rest : List UInt8) (b : UInt8) : (∀ b ∈ sp, IsSpace b) → ¬ IsSpace b →
      WordsMax (some 0) (sp ++ b :: rest) [b :: rest]
  | word (limit : Option Nat) (sp w rest : List UInt8) (ws : List (List UInt8)) :
      limit ≠ some 0 → (∀ b ∈ sp, IsSpace b) → w ≠ [] → (∀ b ∈ w, ¬ IsSpace b) →
      (∀ b, rest.head? = some b → IsSpace b) → WordsMax (limit.map (· - 1)) rest ws →
      WordsMax limit (sp ++ w ++ rest) (w :: ws)

/-- all maximal runs of non-space characters -/
def Words : List UInt8 → List (List UInt8) → Prop := WordsMax none

/-- `r` is `s` without its leading and trailing white space. -/
def Stripped (s r : List UInt8) : Prop :=
  (∃ a b, s = a ++ r ++ b ∧ (∀ x ∈ a, IsSpace x) ∧ (∀ x ∈ b, IsSpace x)) ∧
  (∀ x, r.head? = some x → ¬ IsSpace x) ∧ (∀ x, r.getLast? = some x → ¬ IsSpace x)

/-- joining with a separator -/
def joined (sep : List UInt8) : List (List UInt8) → List UInt8
  | [] => []
  | [x] => x
  | x :: y :: xs => x ++ sep ++ joined sep (y :: xs)

end Libube.StringSpec

import Verif.Model.Value

/-! # Specification of command lines (C72, C96), independent of how they are scanned -/

namespace Libube.OptionSpec

open Libube

/-- Letters and digits, the characters POSIX allows for options. -/
def IsLetter (c : UInt8) : Prop := 48 ≤ c ∧ c ≤ 57 ∨ 65 ≤ c ∧ c ≤ 90 ∨ 97 ≤ c ∧ c ≤ 122

instance (c : UInt8) : Decidable (IsLetter c) := by unfold IsLetter; infer_instance

/-- What the arguments of a command line can be. -/
inductive Item where
  /-- an argument that is no option -/
  | operand (s : List UInt8)
  /-- options without argument, `-abc` -/
  | flags (f : UInt8) (fs : List UInt8)
  /-- an option with its argument attached, possibly after options without, `-abofile` -/
  | attached (fs : List UInt8) (c : UInt8) (a : List UInt8)
  /-- an option with the next argument as its argument, `-abo file` -/
  | separate (fs : List UInt8) (c : UInt8) (a : List UInt8)

/-- The arguments. -/
def Item.words : Item → List (List UInt8)
  | .operand s => [s]
  | .flags f fs => [45 :: f :: fs]
  | .attached fs c a => [45 :: (fs ++ c :: a)]
  | .separate fs c a => [45 :: (fs ++ [c]), a]

/-- The options without argument. -/
def Item.given : Item → List UInt8
  | .operand _ => []
  | .flags f fs => f :: fs
  | .attached fs _ _ => fs
  | .separate fs _ _ => fs

/-- The item gives option `c` the argument `a`. -/
def Item.Gives : Item → UInt8 → List UInt8 → Prop
  | .attached _ c a, c', a' => c = c' ∧ a = a'
  | .separate _ c a, c', a' => c = c' ∧ a = a'
  | _, _, _ => False

/-- The operand, if it is one. -/
def Item.operands : Item → List (List UInt8)
  | .operand s => [s]
  | _ => []

/-- Operands do not begin with a hyphen, or are just that; options are registered, with a default if
    they have an argument and without if not; attached arguments are not empty. -/
def Item.Valid (regs : List (UInt8 × Val)) : Item → Prop
  | .operand s => s.head? ≠ some 45 ∨ s = [45]
  | .flags f fs => ∀ c ∈ f :: fs, (c, Val.nil) ∈ regs
  | .attached fs c a => (∀ c ∈ fs, (c, Val.nil) ∈ regs) ∧ (∃ d, d ≠ .nil ∧ (c, d) ∈ regs) ∧ a ≠ []
  | .separate fs c _ => (∀ c ∈ fs, (c, Val.nil) ∈ regs) ∧ ∃ d, d ≠ .nil ∧ (c, d) ∈ regs

/-- The last argument given to option `c`. -/
def LastArg (is : List Item) (c : UInt8) (a : List UInt8) : Prop :=
  ∃ p i q, is = p ++ i :: q ∧ i.Gives c a ∧ ∀ j ∈ q, ∀ b, ¬ j.Gives c b

/-- The value option `c`, registered with `d`, has after the items. -/
inductive Value (is : List Item) (c : UInt8) : Val → Val → Prop
  | arg (d : Val) (a : List UInt8) : d ≠ .nil → LastArg is c a → Value is c d (.chars a)
  | dflt (d : Val) : d ≠ .nil → (∀ i ∈ is, ∀ a, ¬ i.Gives c a) → Value is c d d
  | set : (∃ i ∈ is, c ∈ i.given) → Value is c .nil (.int 1#32)
  | unset : (∀ i ∈ is, c ∉ i.given) → Value is c .nil .nil

/-- Options are letters, each registered once. -/
def Regs (regs : List (UInt8 × Val)) : Prop :=
  (∀ r ∈ regs, IsLetter r.1) ∧ (regs.map Prod.fst).Nodup

end Libube.OptionSpec

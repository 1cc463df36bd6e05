import Verif.Spec.Order
import Verif.Spec.Ini

/-! # Specification of configurations (C71), independent of the store -/

namespace Libube.ConfigSpec

open Libube Libube.OrderSpec Libube.IniSpec

/-- What a program does: create a configuration object for a section (nil for none), give object `o`
    another section, merge a file consisting of these lines, store a value, look a value up. -/
inductive Act where
  | create (sec : Val)
  | select (o : Nat) (sec : Val)
  | file (lines : List Item)
  | set (o : Nat) (entry val : Val)
  | look (o : Nat) (entry : Val)

/-- The sections of the objects after these acts, given those before. -/
def sections (ss : List Val) : List Act → List Val
  | [] => ss
  | .create sec :: as => sections (ss ++ [sec]) as
  | .select o sec :: as => sections (ss.set o sec) as
  | _ :: as => sections ss as

/-- With the objects having sections `ss`, the act stores `v` for the entry in the section. -/
inductive Stores (ss : List Val) : Act → Val → Val → Val → Prop
  | set (o : Nat) (s e sec entry v : Val) : ss[o]? = some s → SameKey s sec → SameKey e entry →
      Stores ss (.set o e v) sec entry v
  | file (lines : List Item) (s k w : List UInt8) : LastEntry lines s k w →
      Stores ss (.file lines) (.chars s) (.chars k) (.chars w)

/-- The value most recently stored. -/
def Latest (as : List Act) (sec entry v : Val) : Prop :=
  ∃ a x b, as = a ++ x :: b ∧ Stores (sections [] a) x sec entry v ∧
    ∀ b1 y b2 w, b = b1 ++ y :: b2 → ¬ Stores (sections [] (a ++ x :: b1)) y sec entry w

/-- The name of a section: an ordinary key, or nil for no section. -/
def IsSection (s : Val) : Prop := s = .nil ∨ IsKey s

/-- Sections and entries are ordinary keys, objects are used after they are created, files are such
    that the INI reader reads them as intended (C18). `k` objects exist before. -/
def Proper (k : Nat) : List Act → Prop
  | [] => True
  | .create sec :: as => IsSection sec ∧ Proper (k + 1) as
  | .select o sec :: as => o < k ∧ IsSection sec ∧ Proper k as
  | .file lines :: as => (∀ i ∈ lines, i.Valid ∧ i.OneSeparator ∧ (10 : UInt8) ∉ i.text) ∧ Proper k as
  | .set o entry _ :: as => o < k ∧ IsKey entry ∧ Proper k as
  | .look o entry :: as => o < k ∧ IsKey entry ∧ Proper k as

/-- The bytes of a file. -/
def fileText (lines : List Item) : List UInt8 := lines.flatMap fun i => i.text ++ [10]

end Libube.ConfigSpec

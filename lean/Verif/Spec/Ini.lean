import Verif.Spec.StringFns

/-! # Specification of INI files (C18, C19), independent of the reader -/

namespace Libube.IniSpec

open Libube.StringSpec

/-- Only white space. -/
def Blank (s : List UInt8) : Prop := ∀ b ∈ s, IsSpace b

/-- Does not begin or end with white space. -/
def Trimmed (s : List UInt8) : Prop :=
  (∀ x, s.head? = some x → ¬ IsSpace x) ∧ (∀ x, s.getLast? = some x → ¬ IsSpace x)

/-- What a line of an INI file can be. -/
inductive Item where
  /-- an empty line -/
  | empty
  /-- white space, then `;` or `#`, then text -/
  | comment (pre : List UInt8) (mark : UInt8) (text : List UInt8)
  /-- white space, `[`, a section name, `]`, text -/
  | head (pre name post : List UInt8)
  /-- white space, key, white space, separator, white space, value, white space -/
  | entry (pre key gap : List UInt8) (sep : UInt8) (gap' value post : List UInt8)

/-- The text of a line. -/
def Item.text : Item → List UInt8
  | .empty => []
  | .comment pre mark text => pre ++ mark :: text
  | .head pre name post => pre ++ 91 :: name ++ 93 :: post
  | .entry pre key gap sep gap' value post => pre ++ key ++ gap ++ [sep] ++ gap' ++ value ++ post

/-- A key can be any trimmed text that does not look like a comment or a section line and does
    not contain the separator; the separator is `=`, or `:` if the line has no `=`.  No NUL. -/
def Item.Valid : Item → Prop
  | .empty => True
  | .comment pre mark _ => Blank pre ∧ (mark = 59 ∨ mark = 35)
  | .head pre name _ => Blank pre ∧ 0 ∉ name ∧ 93 ∉ name
  | .entry pre key gap sep gap' value post =>
    Blank pre ∧ Blank gap ∧ Blank gap' ∧ Blank post ∧ Trimmed key ∧ Trimmed value ∧
    key ≠ [] ∧ (∀ x, key.head? = some x → x ≠ 59 ∧ x ≠ 35 ∧ x ≠ 91) ∧
    0 ∉ key ∧ 0 ∉ value ∧
    (sep = 61 ∧ 61 ∉ key ∨ sep = 58 ∧ 61 ∉ key ∧ 58 ∉ key ∧ 61 ∉ value)

/-- The section in force after these lines, starting in section `s`. -/
def sectionAfter (s : List UInt8) : List Item → List UInt8
  | [] => s
  | .head _ name _ :: is => sectionAfter name is
  | _ :: is => sectionAfter s is

/-- The line binds `key` to `value`. -/
def Item.Binds (i : Item) (key value : List UInt8) : Prop :=
  ∃ pre gap sep gap' post, i = .entry pre key gap sep gap' value post

/-- The last line for `key` in section `sec` gives it `value`. -/
def LastEntry (is : List Item) (sec key value : List UInt8) : Prop :=
  ∃ a i b, is = a ++ i :: b ∧ sectionAfter [] a = sec ∧ i.Binds key value ∧
    ∀ b1 j b2 v, b = b1 ++ j :: b2 → sectionAfter [] (a ++ i :: b1) = sec → ¬ j.Binds key v

/-- The value does not contain its separator. -/
def Item.OneSeparator : Item → Prop
  | .entry _ _ _ sep _ value _ => sep ∉ value
  | _ => True

end Libube.IniSpec

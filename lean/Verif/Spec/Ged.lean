import Verif.Model.Value

/-! # GEDCOM documents: their text and what they say

A document has a header, records of submitters, individuals and families, and a trailer.  Nothing here refers to the reader. -/

namespace Libube.GedSpec

open Libube Libube.CString

/-- The characters of a word of ASCII letters. -/
def ascii (s : String) : Bytes := s.toList.map fun c => UInt8.ofNat c.toNat

/-- A line: the level, one digit, and its text. -/
def raw (l : Nat) (t : Bytes) : Bytes := UInt8.ofNat (48 + l) :: 32 :: t ++ [10]

/-- What may follow a tag: nothing, or a space and some text. -/
abbrev Arg := Option Bytes

/-- The text that follows a tag, with the space. -/
def argBytes : Arg → Bytes
  | none => []
  | some t => 32 :: t

/-- The text that follows a tag. -/
def argText : Arg → Bytes
  | none => []
  | some t => t

/-- A line with a tag. -/
def line (l : Nat) (tag : Bytes) (a : Arg) : Bytes := raw l (tag ++ argBytes a)

/-- The tag and the text of a line at level 2. -/
structure Sub where
  tag : Bytes
  arg : Arg

/-- The lines at level 2. -/
def subText (cs : List Sub) : Bytes := cs.flatMap fun c => line 2 c.tag c.arg

/-- Something said about an individual, with the lines below. -/
inductive Item where
  | name (a : Arg)
  | titl (a : Arg)
  | sex (a : Arg)
  | event (tag : Bytes) (a : Arg) (subs : List Sub)
  | other (tag : Bytes) (a : Arg) (conts : List Sub)

/-- The text of an item. -/
def Item.text : Item → Bytes
  | .name a => line 1 (ascii "NAME") a
  | .titl a => line 1 (ascii "TITL") a
  | .sex a => line 1 (ascii "SEX") a
  | .event t a cs => line 1 t a ++ subText cs
  | .other t a cs => line 1 t a ++ subText cs

/-- Something said about a family, with the lines below. -/
inductive FamItem where
  | husb (x : Bytes)
  | wife (x : Bytes)
  | chil (x : Bytes)
  | marr (a : Arg) (first : Sub) (subs : List Sub)
  | other (tag : Bytes) (a : Arg)

/-- The text of an item. -/
def FamItem.text : FamItem → Bytes
  | .husb x => line 1 (ascii "HUSB") (some x)
  | .wife x => line 1 (ascii "WIFE") (some x)
  | .chil x => line 1 (ascii "CHIL") (some x)
  | .marr a c cs => line 1 (ascii "MARR") a ++ subText (c :: cs)
  | .other t a => line 1 t a

/-- A record; all have at least one line below the first. -/
inductive Record where
  | indi (xref : Bytes) (first : Item) (items : List Item)
  | fam (xref : Bytes) (first : FamItem) (items : List FamItem)
  | subm (xref : Bytes) (first : Bytes) (lines : List (Nat × Bytes))

/-- The text of lines given by level and text. -/
def rawText (ls : List (Nat × Bytes)) : Bytes := ls.flatMap fun l => raw l.1 l.2

/-- What follows the level in the first line of a record. -/
def Record.title : Record → Bytes
  | .indi x _ _ => x ++ ascii " INDI"
  | .fam x _ _ => x ++ ascii " FAM"
  | .subm x _ _ => x ++ ascii " SUBM"

/-- The lines of a record after the first. -/
def Record.body : Record → Bytes
  | .indi _ i is => (i :: is).flatMap Item.text
  | .fam _ i is => (i :: is).flatMap FamItem.text
  | .subm _ t ls => raw 1 t ++ rawText ls

/-- The text of a record. -/
def Record.text (r : Record) : Bytes := raw 0 r.title ++ r.body

/-- A document: the lines below HEAD, and the records. -/
structure Doc where
  first : Bytes
  header : List (Nat × Bytes)
  records : List Record

/-- Header and records. -/
def Doc.front (d : Doc) : Bytes := raw 0 (ascii "HEAD") ++ (raw 1 d.first ++ rawText d.header) ++ d.records.flatMap Record.text

/-- The text of a document. -/
def Doc.text (d : Doc) : Bytes := d.front ++ raw 0 (ascii "TRLR")

/-- The tags the reader knows. -/
def knownTags : List Bytes :=
  ["CONT", "CONC", "HEAD", "TRLR", "INDI", "FAM", "SUBM", "NAME", "TITL", "SEX", "FAMC", "FAMS", "BIRT", "DEAT", "CHR", "BURI",
   "PLAC", "DATE", "OCCU", "NOTE", "HUSB", "WIFE", "CHIL", "MARR", "DIV", "REFN"].map ascii

/-- Births, deaths and so on. -/
def eventTags : List Bytes := ["BIRT", "DEAT", "CHR", "BURI"].map ascii

/-- Tags of continuation lines. -/
def contTags : List Bytes := ["CONT", "CONC"].map ascii

/-- Text of a line: no newline, no NUL. -/
def Text (t : Bytes) : Prop := (10 : UInt8) ∉ t ∧ (0 : UInt8) ∉ t

/-- A word of a line: text that is not empty, without spaces. -/
def Word (w : Bytes) : Prop := Text w ∧ (32 : UInt8) ∉ w ∧ w ≠ []

/-- What follows a tag is text. -/
def ValidArg (a : Arg) : Prop := ∀ t, a = some t → Text t

/-- A line below an event. -/
def Sub.Valid (c : Sub) : Prop := c.tag ∈ knownTags ∧ ValidArg c.arg

/-- What may be said of an individual.  Lines below are allowed for events, with any known tag, and, if they are continuations, for
    what is no name, title or sex. -/
def Item.Valid : Item → Prop
  | .name a => ValidArg a
  | .titl a => ValidArg a
  | .sex a => ValidArg a
  | .event t a cs => t ∈ eventTags ∧ ValidArg a ∧ ∀ c ∈ cs, c.Valid
  | .other t a cs => t ∈ knownTags ∧ t ∉ eventTags ∧ t ∉ contTags ∧ t ∉ ["NAME", "TITL", "SEX"].map ascii ∧ ValidArg a ∧
    ∀ c ∈ cs, c.tag ∈ contTags ∧ ValidArg c.arg

/-- What may be said of a family. -/
def FamItem.Valid : FamItem → Prop
  | .husb x => Word x
  | .wife x => Word x
  | .chil x => Word x
  | .marr a c cs => ValidArg a ∧ ∀ b ∈ c :: cs, b.Valid
  | .other t a => t ∈ knownTags ∧ t ∉ ["HUSB", "WIFE", "CHIL", "MARR"].map ascii ∧ ValidArg a

/-- Lines that are skipped. -/
def ValidLines (ls : List (Nat × Bytes)) : Prop := ∀ l ∈ ls, 1 ≤ l.1 ∧ l.1 ≤ 9 ∧ Text l.2

/-- A cross reference. -/
def Xref (x : Bytes) : Prop := Word x ∧ x.head? = some 64

/-- A record with valid lines. -/
def Record.Valid : Record → Prop
  | .indi x i is => Xref x ∧ ∀ j ∈ i :: is, j.Valid
  | .fam x i is => Xref x ∧ ∀ j ∈ i :: is, j.Valid
  | .subm x t ls => Xref x ∧ Text t ∧ ValidLines ls

/-- The cross references of the individuals, in order. -/
def xrefs (rs : List Record) : List Bytes := rs.filterMap fun
  | .indi x _ _ => some x
  | _ => none

/-- The individual an item of a family refers to. -/
def FamItem.links : FamItem → List Bytes
  | .husb x => [x]
  | .wife x => [x]
  | .chil x => [x]
  | _ => []

/-- The individuals a record refers to. -/
def Record.links : Record → List Bytes
  | .fam _ i is => (i :: is).flatMap FamItem.links
  | _ => []

/-- Header and records are valid, and cross references distinct. -/
def Doc.Valid (d : Doc) : Prop :=
  Text d.first ∧ ValidLines d.header ∧ (∀ r ∈ d.records, r.Valid) ∧ (xrefs d.records).Nodup

/-- All references are to individuals of the document. -/
def Linked (rs : List Record) : Prop := ∀ r ∈ rs, ∀ x ∈ r.links, x ∈ xrefs rs

/-- All references are to individuals that come before. -/
def LinkedBack (rs : List Record) : Prop :=
  ∀ as r bs, rs = as ++ r :: bs → ∀ x ∈ r.links, x ∈ xrefs as

/-- The last text, if any. -/
def lastText (ts : List Bytes) : Val :=
  match ts.getLast? with
  | none => .nil
  | some t => .chars t

/-- The map of an individual: the last name, sex and title given. -/
def person (is : List Item) : Val :=
  .map [(.chars (ascii "NAME"), lastText (is.filterMap fun | .name a => some (argText a) | _ => none)),
    (.chars (ascii "SEX"), lastText (is.filterMap fun | .sex a => some (argText a) | _ => none)),
    (.chars (ascii "TITL"), lastText (is.filterMap fun | .titl a => some (argText a) | _ => none))]

/-- The position of an individual. -/
def position (xs : List Bytes) (x : Bytes) : BitVec 32 := BitVec.ofNat 32 (xs.idxOf x)

/-- The position of the last individual, if any. -/
def lastPosition (xs : List Bytes) (ls : List Bytes) : Val :=
  match ls.getLast? with
  | none => .nil
  | some x => .int (position xs x)

/-- The positions of individuals; of one it is a number, not an array. -/
def positions (xs : List Bytes) : List Bytes → Val
  | [] => .nil
  | [x] => .int (position xs x)
  | ls => .ints (ls.map (position xs))

/-- The map of a family, for the cross references `xs` of the individuals. -/
def household (xs : List Bytes) (is : List FamItem) : Val :=
  .map [(.chars (ascii "CHIL"), positions xs (is.filterMap fun | .chil x => some x | _ => none)),
    (.chars (ascii "HUSB"), lastPosition xs (is.filterMap fun | .husb x => some x | _ => none)),
    (.chars (ascii "WIFE"), lastPosition xs (is.filterMap fun | .wife x => some x | _ => none))]

/-- The individuals. -/
def people (rs : List Record) : List Val := rs.filterMap fun
  | .indi _ i is => some (person (i :: is))
  | _ => none

/-- The families. -/
def families (rs : List Record) : List Val := rs.filterMap fun
  | .fam _ i is => some (household (xrefs rs) (i :: is))
  | _ => none

/-- An entry, if there is anything to put there. -/
def entry (key : String) : List Val → List (Val × Val)
  | [] => []
  | vs => [(.chars (ascii key), .arr vs)]

/-- Families and individuals, in arrays; nil if there are none. -/
def contents (fs ps : List Val) : Val :=
  match entry "Family" fs ++ entry "Individual" ps with
  | [] => .nil
  | es => .map es

/-- What a document says. -/
def Doc.value (d : Doc) : Val := contents (families d.records) (people d.records)

end Libube.GedSpec

namespace Libube.GedSpec

open Libube Libube.CString

/-! ### What every result looks like -/

/-- Text, or nothing. -/
def IsText (v : Val) : Prop := v = .nil ∨ ∃ t, v = .chars t

/-- The map of an individual. -/
def IsPerson (v : Val) : Prop :=
  ∃ n s t, v = .map [(.chars (ascii "NAME"), n), (.chars (ascii "SEX"), s), (.chars (ascii "TITL"), t)] ∧ IsText n ∧ IsText s ∧ IsText t

/-- The position of one of `n` individuals. -/
def Index (n : Nat) (i : BitVec 32) : Prop := 0 ≤ i.toInt ∧ i.toInt < n

/-- The position of one of `n` individuals, or nothing. -/
def IsLink (n : Nat) (v : Val) : Prop := v = .nil ∨ ∃ i, v = .int i ∧ Index n i

/-- The positions of some of `n` individuals. -/
def IsLinks (n : Nat) (v : Val) : Prop := IsLink n v ∨ ∃ is, v = .ints is ∧ ∀ i ∈ is, Index n i

/-- The map of a family. -/
def IsFamily (n : Nat) (v : Val) : Prop :=
  ∃ c h w, v = .map [(.chars (ascii "CHIL"), c), (.chars (ascii "HUSB"), h), (.chars (ascii "WIFE"), w)] ∧ IsLinks n c ∧ IsLink n h ∧ IsLink n w

/-- Maps of families and individuals; what a family refers to is there. -/
def Sound (v : Val) : Prop := ∃ fs ps, v = contents fs ps ∧ (∀ p ∈ ps, IsPerson p) ∧ ∀ f ∈ fs, IsFamily ps.length f

end Libube.GedSpec

import Verif.Spec.Order
import Verif.Model.Xml

/-! # Specification of XML documents (C68-C70), independent of the reader and the writer.

Of the model only the types of contents (`Val`) and of parser events (`Event`) are used. -/

namespace Libube.XmlSpec

open Libube Libube.Xml

abbrev Str := List UInt8

/-! ## Entities -/

/-- The five entities: name (without `&`, with `;`) and character. -/
def entities : List (Str × UInt8) :=
  [([97, 109, 112, 59], 38), ([108, 116, 59], 60), ([103, 116, 59], 62),
   ([97, 112, 111, 115, 59], 39), ([113, 117, 111, 116, 59], 34)]

/-- `t` is `s` with every entity replaced by its character; `s` has no other `&`. -/
inductive Replaced : Str → Str → Prop
  | nil : Replaced [] []
  | char (b s t) : b ≠ 38 → Replaced s t → Replaced (b :: s) (b :: t)
  | entity (e b s t) : (e, b) ∈ entities → Replaced s t → Replaced (38 :: e ++ s) (b :: t)

/-! ## Documents -/

/-- `v` is a string or an array of `k` numbers. -/
def Packed (v : Val) (k : Nat) : Prop :=
  (∃ s, v = .chars s ∧ s.length = k) ∨ (∃ xs, v = .ints xs ∧ xs.length = k) ∨ (∃ xs, v = .longs xs ∧ xs.length = k) ∨ (∃ xs, v = .floats xs ∧ xs.length = k) ∨
    (∃ xs, v = .doubles xs ∧ xs.length = k) ∨ (∃ xs, v = .cfloats xs ∧ xs.length = k) ∨ ∃ xs, v = .cdoubles xs ∧ xs.length = k

/-- An element tree. -/
inductive Tree where
  | text (s : Str)
  | elem (name : Str) (atts : List (Str × Str)) (sub : List Tree)

mutual
/-- The events a parser reports for a tree. -/
def events : Tree → List Event
  | .text s => [.text s]
  | .elem name atts sub => .start name atts :: eventsAll sub ++ [.stop name]
/-- The events for a list of trees. -/
def eventsAll : List Tree → List Event
  | [] => []
  | t :: ts => events t ++ eventsAll ts
end

/-- The attributes of an element as a var: nil if there are none, else a map in the order of the
    names with exactly these entries. -/
def ShowsAtts (atts : List (Str × Str)) (v : Val) : Prop :=
  (atts = [] ∧ v = .nil) ∨
  (atts ≠ [] ∧ ∃ ps, v = .map ps ∧
    ps.Perm (atts.map fun a => (Val.chars a.1, Val.chars a.2)) ∧
    ps.Pairwise fun p q => OrderSpec.KeyLt p.1 q.1)

/-- The var shows the tree: a string for text, for an element an array of name, attributes, the
    word "text", and the array of what is inside, nil if nothing is. -/
inductive Shows : Tree → Val → Prop
  | text (s) : Shows (.text s) (.chars s)
  | empty (name atts a) : ShowsAtts atts a →
      Shows (.elem name atts []) (.arr [.chars name, a, .chars [116, 101, 120, 116], .nil])
  | elem (name atts sub a) (vs : List Val) : ShowsAtts atts a → sub ≠ [] →
      sub.length = vs.length →
      (∀ (i : Nat) (h : i < sub.length) (h' : i < vs.length), Shows sub[i] vs[i]) →
      Shows (.elem name atts sub) (.arr [.chars name, a, .chars [116, 101, 120, 116], .arr vs])

mutual
/-- Attribute names are distinct within each element; no name contains NUL. -/
def Tree.Wf : Tree → Prop
  | .text _ => True
  | .elem name atts sub => 0 ∉ name ∧ (∀ a ∈ atts, 0 ∉ a.1) ∧
      atts.Pairwise (fun a b => a.1 ≠ b.1) ∧ Tree.WfAll sub
/-- The same for a list of trees. -/
def Tree.WfAll : List Tree → Prop
  | [] => True
  | t :: ts => t.Wf ∧ Tree.WfAll ts
end

mutual
/-- Nesting depth. -/
def Tree.depth : Tree → Nat
  | .text _ => 0
  | .elem _ _ sub => Tree.depthAll sub + 1
/-- The same for a list of trees. -/
def Tree.depthAll : List Tree → Nat
  | [] => 0
  | t :: ts => max t.depth (Tree.depthAll ts)
end

/-! ## A reference tokeniser

For documents without document type, comments, processing instructions and CDATA sections, as
described by the XML recommendation: what an XML parser reports.  Text is reported byte by byte.
That end tags match start tags is not checked here.  Bytes from 128 on are accepted anywhere in
names and text; a parser also checks that they form valid UTF-8. -/

/-- A character allowed in names at the start: letters, `_`, `:`, beyond ASCII. -/
def NameStart (b : UInt8) : Prop :=
  65 ≤ b ∧ b ≤ 90 ∨ 97 ≤ b ∧ b ≤ 122 ∨ b = 95 ∨ b = 58 ∨ 128 ≤ b

/-- A character allowed in names. -/
def NameChar (b : UInt8) : Prop := NameStart b ∨ 48 ≤ b ∧ b ≤ 57 ∨ b = 45 ∨ b = 46

/-- A character allowed in text. -/
def TextChar (b : UInt8) : Prop := b = 9 ∨ b = 10 ∨ b = 13 ∨ 32 ≤ b

instance (b) : Decidable (NameStart b) := by unfold NameStart; infer_instance
instance (b) : Decidable (NameChar b) := by unfold NameChar; infer_instance
instance (b) : Decidable (TextChar b) := by unfold TextChar; infer_instance

/-- Space, tab, newline, carriage return. -/
def Blank (b : UInt8) : Prop := b = 32 ∨ b = 9 ∨ b = 10 ∨ b = 13

instance (b) : Decidable (Blank b) := by unfold Blank; infer_instance

/-- Where the tokeniser is. -/
inductive Mode where
  /-- before the root element -/
  | prolog
  /-- after `<` before the root element -/
  | prologLt
  /-- inside `<? … ?>` before the root element; whether the last character was `?` -/
  | decl (q : Bool)
  /-- in text; whether the last character was a carriage return -/
  | text (cr : Bool)
  /-- after `&` in text -/
  | textEnt (e : Str)
  /-- after `<` -/
  | lt
  /-- in the name of a start tag -/
  | name (n : Str)
  /-- inside a start tag; whether white space precedes -/
  | tag (n : Str) (as : List (Str × Str)) (sp : Bool)
  /-- in an attribute name -/
  | att (n : Str) (as : List (Str × Str)) (a : Str)
  /-- after the equals sign -/
  | eq (n : Str) (as : List (Str × Str)) (a : Str)
  /-- in an attribute value with the given kind of quotes -/
  | val (n : Str) (as : List (Str × Str)) (a : Str) (q : UInt8) (v : Str)
  /-- after `&` in an attribute value -/
  | valEnt (n : Str) (as : List (Str × Str)) (a : Str) (q : UInt8) (v : Str) (e : Str)
  /-- after the slash of an empty element -/
  | slash (n : Str) (as : List (Str × Str))
  /-- in the name of an end tag -/
  | close (n : Str)
  deriving DecidableEq

/-- The character of an entity. -/
def entity (e : Str) : Option UInt8 := (entities.find? fun p => p.1 = e).map Prod.snd

/-- The effect of one character: the new place and what is reported. -/
def step : Mode → UInt8 → Option (Mode × List Event)
  | .prolog, b =>
    if b = 60 then some (.prologLt, [])
    else if Blank b then some (.prolog, [.other [b]]) else none
  | .prologLt, b =>
    if b = 63 then some (.decl false, [])
    else if NameStart b then some (.name [b], []) else none
  | .decl q, b =>
    if b = 62 ∧ q then some (.prolog, []) else some (.decl (b = 63), [])
  | .text cr, b =>
    if b = 60 then some (.lt, [])
    else if b = 38 then some (.textEnt [], [])
    else if b = 13 then some (.text true, [.text [10]])
    else if b = 10 ∧ cr then some (.text false, [])
    else if TextChar b then some (.text false, [.text [b]]) else none
  | .textEnt e, b =>
    if b = 59 then (entity (e ++ [b])).map fun c => (.text false, [.text [c]])
    else if NameChar b then some (.textEnt (e ++ [b]), []) else none
  | .lt, b =>
    if b = 47 then some (.close [], [])
    else if NameStart b then some (.name [b], []) else none
  | .name n, b =>
    if NameChar b then some (.name (n ++ [b]), [])
    else if Blank b then some (.tag n [] true, [])
    else if b = 62 then some (.text false, [.start n []])
    else if b = 47 then some (.slash n [], []) else none
  | .tag n as sp, b =>
    if Blank b then some (.tag n as true, [])
    else if NameStart b ∧ sp then some (.att n as [b], [])
    else if b = 62 then some (.text false, [.start n as])
    else if b = 47 then some (.slash n as, []) else none
  | .att n as a, b =>
    if NameChar b then some (.att n as (a ++ [b]), [])
    else if b = 61 then some (.eq n as a, []) else none
  | .eq n as a, b =>
    if b = 34 ∨ b = 39 then some (.val n as a b [], []) else none
  | .val n as a q v, b =>
    if b = q then some (.tag n (as ++ [(a, v)]) false, [])
    else if b = 38 then some (.valEnt n as a q v [], [])
    else if b = 60 then none
    else if Blank b then some (.val n as a q (v ++ [32]), [])
    else if TextChar b then some (.val n as a q (v ++ [b]), []) else none
  | .valEnt n as a q v e, b =>
    if b = 59 then (entity (e ++ [b])).map fun c => (.val n as a q (v ++ [c]), [])
    else if NameChar b then some (.valEnt n as a q v (e ++ [b]), []) else none
  | .slash n as, b => if b = 62 then some (.text false, [.start n as, .stop n]) else none
  | .close n, b =>
    if b = 62 ∧ n ≠ [] then some (.text false, [.stop n])
    else if NameChar b then some (.close (n ++ [b]), []) else none

/-- The events of a sequence of characters. -/
def tokens : Mode → Str → Option (Mode × List Event)
  | m, [] => some (m, [])
  | m, b :: s =>
    match step m b with
    | none => none
    | some (m, es) => (tokens m s).map fun r => (r.1, es ++ r.2)

/-- The reports with text in single bytes. -/
def bytewise : List Event → List Event
  | [] => []
  | .text s :: es => s.map (fun b => .text [b]) ++ bytewise es
  | e :: es => e :: bytewise es

/-- A parser fed with `s` may report `es`: text arrives in pieces of the parser's choice. -/
def Reports (s : Str) (es : List Event) : Prop :=
  ∃ m ts, tokens .prolog s = some (m, ts) ∧ bytewise es = ts ∧ .text [] ∉ es

/-- Two trees are the same document: same elements, same attributes in the same order, same text
    in between; how text is divided does not matter. -/
def SameDoc (s t : Tree) : Prop := bytewise (events s) = bytewise (events t)

end Libube.XmlSpec

namespace Libube.XmlSpec

/-- An XML name. -/
def IsName (s : Str) : Prop := ∃ b r, s = b :: r ∧ NameStart b ∧ ∀ c ∈ r, NameChar c

mutual
/-- What survives writing and reading: names are XML names, distinct and in order within each
    element; text contains no control characters but tabs, attribute values none at all. -/
def Tree.Plain : Tree → Prop
  | .text s => ∀ b ∈ s, b = 9 ∨ 32 ≤ b
  | .elem name atts sub => IsName name ∧ (∀ a ∈ atts, IsName a.1 ∧ ∀ b ∈ a.2, 32 ≤ b) ∧
      atts.Pairwise (fun a b => List.Lex (fun x y : UInt8 => x.toNat < y.toNat) a.1 b.1) ∧
      Tree.PlainAll sub
/-- The same for a list of trees. -/
def Tree.PlainAll : List Tree → Prop
  | [] => True
  | t :: ts => t.Plain ∧ Tree.PlainAll ts
end

end Libube.XmlSpec

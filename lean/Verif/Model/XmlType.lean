import Verif.Model.Xml

/-! # XML documents in a program (lube/xmlfile.cpp)

Every element is a copy of one static element, made when the first is needed (lube/xmlfile.cpp:194-206).  Copies are not deep (lube/var.cpp:584-597;
lube/heap.cpp:281-311): name, attributes and data of the static element are nil and are assigned in each copy, but the string "text" in TYPE is one array in memory,
shared by all elements of all documents (Props/XmlType: `type_is_one_array`, on the machine of Model/Mem). -/

namespace Libube.XmlType

open Libube Libube.Xml Libube.CString

/-- A document as returned by `Expat::parse` (lube/xmlfile.cpp:190): the elements made while reading and the number of the root element. -/
structure Doc where
  elems : List Elem
  root : Option Nat

/-- What the string in TYPE of the static element contains (lube/xmlfile.cpp:196-204), and the documents read.  The static element is taken to exist from the start;
    before it is made nothing refers to it. -/
structure Proc where
  text : Bytes
  docs : List Doc

/-- Before `main` (lube/xmlfile.cpp:203). -/
def Proc.init : Proc := ⟨textWord, []⟩

/-- What a var referring to element `id` holds when the string in TYPE is `t` (lube/xmlfile.cpp:200-203, 213, 217, 220, 237). -/
def shown (t : Bytes) (es : List Elem) : Nat → Nat → Outcome Val
  | 0, _ => .diverge
  | n + 1, id =>
    match es[id]? with
    | none => .ub .outOfBounds
    | some e => do
      let ds ← contents (shown t es n) e.data
      .ok (.arr [.chars e.name, if e.attr = [] then .nil else .map e.attr, .chars t,
        if e.data = [] then .nil else .arr ds])

/-- What document `k` holds now, down to the given depth. -/
def Proc.doc (p : Proc) (depth k : Nat) : Outcome Val :=
  match p.docs[k]? with
  | none => .ub .uninit
  | some d =>
    match d.root with
    | none => .ok .nil
    | some id => shown p.text d.elems depth id

/-- The statements. -/
inductive Op where
  | read (evs : List Event)
  | change (k : Nat) (f : Bytes → Bytes)

/-- `docs[k] = xml.read(name);` of a file for which expat makes these calls (lube/xmlfile.cpp:72-77, 170-191), and a change in place of the string in TYPE of any element
    of document `k`, as by `var t = doc[TYPE]; t[0] = 'T';` (lube/data.h:21-26).  If the document is nil nothing is changed.  `n` as in Model/Xml. -/
def step (n : Nat) (p : Proc) : Op → Outcome Proc
  | .read evs => do
    let s ← handleAll n .init evs
    match s.stack with
    | some (_ :: _) => .thrown (.error "xmlfile::parse(): Short file?")
    | _ => .ok { p with docs := p.docs ++ [⟨s.elems, s.root⟩] }
  | .change k f =>
    match p.docs[k]? with
    | none => .ub .uninit
    | some d =>
      match d.root with
      | none => .ok p
      | some _ => .ok { p with text := f p.text }

/-- A program. -/
def run (n : Nat) (p : Proc) : List Op → Outcome Proc
  | [] => .ok p
  | o :: os => do
    let p ← step n p o
    run n p os

/-- `xml.write(name, docs[k])` (lube/xmlfile.cpp:241-255): the bytes of the file.  `n` as in Model/Xml. -/
def Proc.write (p : Proc) (n depth k : Nat) : Outcome Bytes := do
  let v ← p.doc depth k
  Xml.write n v

end Libube.XmlType

import Verif.Model.GetLine
import Verif.Model.MapOps

/-! # lube/xmlfile.cpp: reading and writing XML

Elements are arrays of four vars: name, attributes, type and data (lube/data.h:21-26). -/

namespace Libube.Xml

open Libube Libube.CString

/-! ## Writing -/

/-- What `escape` writes for one character (lube/xmlfile.cpp:292-312): `&amp;` for `&`, `&lt;` for
    `<`, `&gt;` for `>`, `&apos;` for `'`, `&quot;` for `"`, else the character. -/
def escapeByte (b : UInt8) : Bytes :=
  if b = 38 then [38, 97, 109, 112, 59]
  else if b = 60 then [38, 108, 116, 59]
  else if b = 62 then [38, 103, 116, 59]
  else if b = 39 then [38, 97, 112, 111, 115, 59]
  else if b = 34 then [38, 113, 117, 111, 116, 59]
  else [b]

/-- The loop of `XMLWriter::escape` over the characters of a string (lube/xmlfile.cpp:291-312). -/
def escape : Bytes → Bytes
  | [] => []
  | b :: s => escapeByte b ++ escape s

/-- `XMLWriter::escape` (lube/xmlfile.cpp:288-313).  `str()` of something without a heap is a
    static NUL (lube/var.cpp:194-200), so nil writes nothing and a single character or number
    writes a NUL byte; `str()` of another array is a pointer into memory of another type. -/
def escapeVal : Val → Outcome Bytes
  | .chars s => .ok (escape s)
  | .nil => .ok []
  | .char _ | .int _ | .long _ | .float _ | .double _ | .cfloat _ _ => .ok (escape [0])
  | _ => .ub .typePun

/-- `os << v.str()` (lube/xmlfile.cpp:267, 271, 284; lube/var.cpp:194-200): the characters up to
    the first NUL. -/
def strOf : Val → Outcome Bytes
  | .chars s => .ok (cstr s)
  | .nil => .ok []
  | .char _ | .int _ | .long _ | .float _ | .double _ | .cfloat _ _ => .ok []
  | _ => .ub .typePun

/-- "text", the content of TYPE (lube/xmlfile.cpp:203, 260). -/
def textWord : Bytes := [116, 101, 120, 116]

/-- The loop over the attributes (lube/xmlfile.cpp:269-274). -/
def writeAttrs : List (Val × Val) → Outcome Bytes
  | [] => .ok []
  | (k, v) :: ps => do
    let k ← strOf k
    let v ← escapeVal v
    let r ← writeAttrs ps
    .ok ([32] ++ k ++ [61, 34] ++ v ++ [34] ++ r)

/-- `if (attr) for …` (lube/xmlfile.cpp:268-274): nothing for nil and for empty arrays; `key`
    throws on anything but a map (lube/var.cpp:844-849). -/
def writeAttr : Val → Outcome Bytes
  | .nil => .ok []
  | .map ps => writeAttrs ps
  | v => if v.size = 0 then .ok [] else .thrown (.error "var::key(): Not a map")

/-- The loop over the data (lube/xmlfile.cpp:281-283); `f` is `writeElem`. -/
def writeData (f : Val → Outcome (Option Bytes)) : List Val → Outcome Bytes
  | [] => .ok []
  | x :: xs => do
    let w ← f x
    let w ← match w with
      | some w => .ok w
      | none => escapeVal x
    let r ← writeData f xs
    .ok (w ++ r)

/-- `data[i]` for all `i` (lube/xmlfile.cpp:281-283), as far as `escape` and `writeElem` can tell: an element of an array of cdouble is
    a reference of size 1 without a heap of its own (lube/heap.cpp:128-132, 156-160), for which a single character stands. -/
def dataItems : Val → List Val
  | .cdoubles xs => xs.map fun _ => .char 0
  | v => v.items

/-- `XMLWriter::writeElem` (lube/xmlfile.cpp:257-286): what is written, `none` if the function
    returns false.  The number is the call depth granted, to this function and to comparisons.
    Writing to the stream is taken to succeed.  `iVar[i]` with a number is the element at that
    place also for maps. -/
def writeElem : Nat → Val → Outcome (Option Bytes)
  | 0, _ => .diverge
  | n + 1, v =>
    if v.size ≠ 4 then .ok none
    else match v.elems with
      | [name, attr, type, data] => do
        if ← neq n type (.chars textWord) then .ok none
        else do
          let name ← strOf name
          let a ← writeAttr attr
          if !data.defined then .ok (some ([60] ++ name ++ a ++ [32, 47, 62]))
          else do
            let d ← writeData (writeElem n) (dataItems data)
            .ok (some ([60] ++ name ++ a ++ [62] ++ d ++ [60, 47] ++ name ++ [62]))
      | _ => .ub .outOfBounds

/-- `<?xml version="1.0" encoding="UTF-8"?>` and a newline (lube/xmlfile.cpp:249). -/
def declaration : Bytes :=
  [60, 63, 120, 109, 108, 32, 118, 101, 114, 115, 105, 111, 110, 61, 34, 49, 46, 48, 34, 32,
   101, 110, 99, 111, 100, 105, 110, 103, 61, 34, 85, 84, 70, 45, 56, 34, 63, 62, 10]

/-- `XMLWriter::write` (lube/xmlfile.cpp:241-255): the bytes of the file.  Opening is taken to
    succeed.  When the exception is thrown the file has already been overwritten with the
    declaration; that is not shown. -/
def write (n : Nat) (v : Val) : Outcome Bytes := do
  match ← writeElem n v with
  | some w => .ok (declaration ++ w ++ [10])
  | none => .thrown (.error "xmlwriter::write(): Top level not element")

/-! ## Reading -/

/-- Calls of expat into the class (lube/xmlfile.cpp:91-141): start and end of an element,
    character data, and whatever has no handler of its own (`other`: comments, processing
    instructions, document types, white space outside the root element). -/
inductive Event where
  | start (name : Bytes) (atts : List (Bytes × Bytes))
  | stop (name : Bytes)
  | text (s : Bytes)
  | other (s : Bytes)
  deriving DecidableEq

/-- What DATA of an element consists of (lube/xmlfile.cpp:213, 237): strings and other elements.
    Elements are shared between DATA of the parent and the parse stack, so they are referred to
    by a number. -/
inductive Item where
  | text (s : Bytes)
  | child (id : Nat)

/-- One array made by `element()` (lube/xmlfile.cpp:194-206).  TYPE is always "text" and is left
    out; ATTR and DATA are nil as long as nothing was put in, else a map and an array. -/
structure Elem where
  name : Bytes
  attr : List (Val × Val)
  data : List Item

/-- The members of class Expat (lube/xmlfile.cpp:44-45) and the elements made so far: element `i`
    is `elems[i]`.  `root` is `mVar`; `stack` is `mStack` with the top at the head; nil and the
    empty array are distinguished, as in the code. -/
structure State where
  elems : List Elem
  root : Option Nat
  stack : Option (List Nat)

/-- The state on construction (lube/xmlfile.cpp:149-161): both members nil. -/
def State.init : State := ⟨[], none, none⟩

/-- `elem[ATTR][iAtts[0]] = iAtts[1]` for all attributes (lube/xmlfile.cpp:218-222). -/
def setAttrs (n : Nat) (ps : List (Val × Val)) : List (Bytes × Bytes) →
    Outcome (List (Val × Val))
  | [] => .ok ps
  | (k, v) :: as => do
    let ps ← mapSet n ps (.chars k) (.chars v)
    setAttrs n ps as

/-- `mStack.top()[DATA].push(x)` where `top` is the element on top (lube/xmlfile.cpp:213, 237;
    lube/var.h:149): the element itself is changed, wherever else it is referred to. -/
def pushData (es : List Elem) (top : Nat) (x : Item) : Outcome (List Elem) :=
  match es[top]? with
  | some e => .ok (es.set top { e with data := e.data ++ [x] })
  | none => .ub .outOfBounds

/-- `startElementHandler` (lube/xmlfile.cpp:209-223).  The new element gets its name and
    attributes when made rather than after being linked.  An element after the root element is an
    error expat reports before calling (lube/xmlfile.cpp:181-182). -/
def startElement (n : Nat) (s : State) (name : Bytes) (atts : List (Bytes × Bytes)) :
    Outcome State := do
  let a ← setAttrs n [] atts
  let id := s.elems.length
  match s.stack with
  | none => .ok ⟨s.elems ++ [⟨name, a, []⟩], some id, some [id]⟩
  | some [] => .thrown (.error "xmlfile::parse(): Error!")
  | some (top :: st) => do
    let es ← pushData s.elems top (.child id)
    .ok ⟨es ++ [⟨name, a, []⟩], s.root, some (id :: top :: st)⟩

/-- `endElementHandler` (lube/xmlfile.cpp:226-231).  `top()` of nil throws (lube/var.cpp:812-813);
    an end tag after the root element is an error expat reports before calling. -/
def endElement (n : Nat) (s : State) (name : Bytes) : Outcome State :=
  match s.stack with
  | none => .thrown (.error "var::at(): uninitialised")
  | some [] => .thrown (.error "xmlfile::parse(): Error!")
  | some (top :: st) =>
    match s.elems[top]? with
    | none => .ub .outOfBounds
    | some e => do
      if ← neq n (.chars e.name) (.chars name) then
        .thrown (.error "Expat::endElementHandler: malformed xml")
      else .ok ⟨s.elems, s.root, some st⟩

/-- `characterDataHandler` (lube/xmlfile.cpp:234-238). -/
def characterData (s : State) (str : Bytes) : Outcome State :=
  match s.stack with
  | none => .thrown (.error "var::at(): uninitialised")
  | some [] => .thrown (.error "xmlfile::parse(): Error!")
  | some (top :: _) => do
    let es ← pushData s.elems top (.text str)
    .ok { s with elems := es }

/-- `DefaultHandler` (lube/xmlfile.cpp:91-102). -/
def defaultHandler (s : State) (str : Bytes) : Outcome State :=
  if str = [13] then .ok s
  else .thrown (.error "xmlfile: default handler called")

/-- One call from expat (lube/xmlfile.cpp:91-141). -/
def handle (n : Nat) (s : State) : Event → Outcome State
  | .start name atts => startElement n s name atts
  | .stop name => endElement n s name
  | .text str => characterData s str
  | .other str => defaultHandler s str

/-- A sequence of calls from expat (lube/xmlfile.cpp:178-186). -/
def handleAll (n : Nat) (s : State) : List Event → Outcome State
  | [] => .ok s
  | e :: es => do
    let s ← handle n s e
    handleAll n s es

/-- What the entries of DATA hold; `f` gives the content of elements (lube/xmlfile.cpp:213,
    237). -/
def contents (f : Nat → Outcome Val) : List Item → Outcome (List Val)
  | [] => .ok []
  | .text s :: xs => do
    let vs ← contents f xs
    .ok (.chars s :: vs)
  | .child i :: xs => do
    let v ← f i
    let vs ← contents f xs
    .ok (v :: vs)

/-- What a var referring to element `id` holds, seen from outside, down to the given depth
    (lube/xmlfile.cpp:200-203, 213, 217, 220, 237). -/
def content (es : List Elem) : Nat → Nat → Outcome Val
  | 0, _ => .diverge
  | n + 1, id =>
    match es[id]? with
    | none => .ub .outOfBounds
    | some e => do
      let ds ← contents (content es n) e.data
      .ok (.arr [.chars e.name, if e.attr = [] then .nil else .map e.attr, .chars textWord,
        if e.data = [] then .nil else .arr ds])

/-- The part of `Expat::parse` after the file has been fed to expat (lube/xmlfile.cpp:187-190). -/
def finish (depth : Nat) (s : State) : Outcome Val :=
  match s.stack with
  | some (_ :: _) => .thrown (.error "xmlfile::parse(): Short file?")
  | _ => match s.root with
    | none => .ok .nil
    | some id => content s.elems depth id

/-- All bytes passed to `XML_Parse` for a file with the given bytes (lube/xmlfile.cpp:176-186): the
    lines, without the newlines.  Opening is taken to succeed.  The first number bounds the
    lines. -/
def fed (fill : UInt8) (fuel : Nat) (file : Bytes) : Outcome Bytes := do
  let ls ← GetLine.readLoop fill fuel [] file []
  .ok ls.flatten

/-- `Expat::parse` (lube/xmlfile.cpp:170-191) of a file for which expat makes these calls. -/
def parse (n depth : Nat) (evs : List Event) : Outcome Val := do
  let s ← handleAll n .init evs
  finish depth s

end Libube.Xml

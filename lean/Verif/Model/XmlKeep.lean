import Verif.Model.Xml

/-! # lube/xmlfile.cpp: what writing does to the data written

`var data = iVar[DATA];` (lube/xmlfile.cpp:265) makes `data` a reference to the element, and `data[i]` (282-283) is the subscript that can
change what it is applied to.  `Model/Xml.lean` has what is written; here the var is followed as well. -/

namespace Libube.XmlKeep

open Libube Libube.Xml Libube.CString

/-- `array()` (lube/var.cpp:901-912), as called by `data[0]` (lube/var.cpp:711-721): a number becomes an array of one. -/
def boxed : Val → Val
  | .char c => .chars [c]
  | .int i => .ints [i]
  | .long i => .longs [i]
  | .float f => .floats [f]
  | .double d => .doubles [d]
  | .cfloat r i => .cfloats [(r, i)]
  | v => v

/-- The same array or map with other vars in it; arrays of numbers and strings have no vars in them that could change
    (lube/heap.cpp:108-118). -/
def withElems : Val → List Val → Val
  | .arr _, xs => .arr xs
  | .map ps, xs => .map (List.zipWith (fun p x => (p.1, x)) ps xs)
  | v, _ => v

/-- `if (!writeElem(…)) escape(…);` (lube/xmlfile.cpp:282-283): what is written, given the result of `writeElem`. -/
def itemText (y : Val) : Option Bytes → Outcome Bytes
  | some w => .ok w
  | none => escapeVal y

/-- The loop over the data (lube/xmlfile.cpp:281-283), with the elements afterwards; `f` is `writeElem`. -/
def writeData (f : Val → Outcome (Option Bytes) × Val) : List Val → Outcome Bytes × List Val
  | [] => (.ok [], [])
  | x :: xs =>
    let (w, y) := f x
    match w >>= itemText y with
    | .ok w =>
      let (r, ys) := writeData f xs
      (r >>= fun r => .ok (w ++ r), y :: ys)
    | .thrown e => (.thrown e, y :: xs)
    | .ub u => (.ub u, y :: xs)
    | .abort => (.abort, y :: xs)
    | .diverge => (.diverge, y :: xs)

/-- `XMLWriter::writeElem` (lube/xmlfile.cpp:257-286) with the var afterwards, also if the function does not return.  Where the same
    array is in two places of the tree each is followed by itself. -/
def writeElem : Nat → Val → Outcome (Option Bytes) × Val
  | 0, v => (.diverge, v)
  | n + 1, v =>
    if v.size ≠ 4 then (.ok none, v)
    else match v.elems with
      | [name, attr, type, data] =>
        let start : Outcome (Option (Bytes × Bytes)) := do
          if ← neq n type (.chars textWord) then .ok none
          else do
            let name ← strOf name
            let a ← writeAttr attr
            .ok (some (name, a))
        match start with
        | .ok none => (.ok none, v)
        | .ok (some (nm, a)) =>
          if !data.defined then (.ok (some ([60] ++ nm ++ a ++ [32, 47, 62])), v)
          else
            let data := boxed data
            let (d, ys) := writeData (writeElem n) (dataItems data)
            (d >>= fun d => .ok (some ([60] ++ nm ++ a ++ [62] ++ d ++ [60, 47] ++ nm ++ [62])),
              withElems v [name, attr, type, withElems data ys])
        | .thrown e => (.thrown e, v)
        | .ub u => (.ub u, v)
        | .abort => (.abort, v)
        | .diverge => (.diverge, v)
      | _ => (.ub .outOfBounds, v)

/-- `XMLWriter::write` (lube/xmlfile.cpp:241-255) with the var of the caller afterwards, which has the same array as `iVar`. -/
def write (n : Nat) (v : Val) : Outcome Bytes × Val :=
  let (w, v) := writeElem n v
  (w >>= fun w => match w with
    | some w => .ok (declaration ++ w ++ [10])
    | none => .thrown (.error "xmlwriter::write(): Top level not element"), v)

end Libube.XmlKeep

import Verif.Model.GetLine
import Verif.Model.StringFns
import Verif.Model.MapOps
import Verif.Model.Json

/-! # lube/inifile.cpp: reading INI files -/

namespace Libube.Ini

open Libube Libube.CString Libube.StringFns

/-- `oVar[section][kv[0]] = kv[1]` (lube/inifile.cpp:68; lube/var.cpp:735-753): the entry of the
    section is found or made, and if nil becomes a map (740-741).  `n` is the depth granted to
    comparisons.  The last case, an entry of another type, does not occur: only maps are stored. -/
def assign (n : Nat) (ps : List (Val × Val)) (sec key val : Bytes) :
    Outcome (List (Val × Val)) := do
  let (ps, i) ← mapRef n ps (.chars sec)
  match i with
  | none => .ok ps
  | some i =>
    match ps[i]? with
    | none => .ub .outOfBounds
    | some (k, .nil) => do
      let q ← mapSet n [] (.chars key) (.chars val)
      .ok (ps.set i (k, .map q))
    | some (k, .map q) => do
      let q ← mapSet n q (.chars key) (.chars val)
      .ok (ps.set i (k, .map q))
    | some _ => .abort

/-- `kv = f.split("=")`, if that gives fewer than two pieces `f.split(":")`
    (lube/inifile.cpp:61-65). -/
def cut (fuel : Nat) (f : Bytes) : Outcome (Bytes × Bytes) := do
  let kv ← split fuel f [61] 0
  let kv ← if kv.length < 2 then split fuel f [58] 0 else .ok kv
  match kv with
  | k :: v :: _ => .ok (k, v)
  | _ => .thrown (.error "inifile::read(): couldn't split")

/-- The body of the loop of `inifile::read` for one line (lube/inifile.cpp:44-69): the entries
    read so far and the current section.  `section.resize(close); section.shift()` keeps the
    characters 1 to close-1. -/
def line (n : Nat) (ps : List (Val × Val)) (sec l : Bytes) :
    Outcome (List (Val × Val) × Bytes) := do
  let f ← stripInPlace l
  match f with
  | [] => .ok (ps, sec)
  | c :: _ =>
    if c = 59 ∨ c = 35 then .ok (ps, sec)
    else if c = 91 then do
      let close ← index n (.chars f) (.char 93)
      if close < 0 then .thrown (.error "inifile::read(): can't find ]")
      else .ok (ps, (f.take close.toNat).drop 1)
    else do
      let (k, v) ← cut (f.length + 1) f
      let k ← stripInPlace k
      let v ← stripInPlace v
      let ps ← assign n ps sec k v
      .ok (ps, sec)

/-- The loop of `inifile::read` (lube/inifile.cpp:42-70); the first number bounds the
    iterations. -/
def loop (fill : UInt8) (n : Nat) : Nat → Bytes → Bytes → List (Val × Val) → Bytes →
    Outcome (List (Val × Val))
  | 0, _, _, _, _ => .diverge
  | fuel + 1, old, rest, ps, sec => do
    match ← GetLine.getline fill old rest with
    | (none, _) => .ok ps
    | (some f, rest) => do
      let (ps, sec) ← line n ps sec f
      loop fill n fuel f rest ps sec

/-- `inifile::read` of a file with the given bytes (lube/inifile.cpp:33-72): the entries of the
    map returned; with no entry the C++ result is nil rather than an empty map.  Opening is taken
    to succeed.  `old`, the former content of the line variable, is the line before stripping
    rather than after; `getline` overwrites it in either case. -/
def read (fill : UInt8) (n fuel : Nat) (content : Bytes) : Outcome (List (Val × Val)) :=
  loop fill n fuel [] content [] []

/-- `inifile::write` of an array or map with these values (lube/inifile.cpp:74-81): the bytes of the file.  `at(i)` of a
    map is the value of entry `i` (lube/var.cpp:808-819), which is printed as JSON (lube/json.cpp:286-291).  Opening is taken to succeed. -/
def write (vs : List Val) : Bytes := vs.flatMap fun v => Json.format 0 v ++ [10]

end Libube.Ini

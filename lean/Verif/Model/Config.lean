import Verif.Model.Ini

/-! # lube/config.cpp: the configuration store

Contents only: what values share with the variables they came from is not part of this model
(lube/var.cpp's sharing is that of Model/Mem.lean). -/

namespace Libube.Config

open Libube Libube.CString

/-- The static `sConfig` (lube/config.cpp:121-124), nil and the empty map alike being the empty
    list, and `mSection` of every `Config` object created so far (lube/config.h:69), which may be
    nil. -/
structure State where
  conf : List (Val × Val)
  secs : List Val

/-- Before the first object is created (lube/config.cpp:123). -/
def State.start : State := ⟨[], []⟩

/-- `sConfig[sec][entry] = val` (lube/config.cpp:156 and 182; lube/var.cpp:735-753): the entry of the
    section is found or made, and if nil becomes a map (lube/var.cpp:738-742).  For a nil section the
    assignment is to a temporary.  `n` is the depth granted to comparisons.  The last case, a section
    that is neither nil nor a map, does not occur: only maps are stored. -/
def assign (n : Nat) (ps : List (Val × Val)) (sec entry val : Val) : Outcome (List (Val × Val)) := do
  let (ps, i) ← mapRef n ps sec
  match i with
  | none => .ok ps
  | some i =>
    match ps[i]? with
    | none => .ub .outOfBounds
    | some (k, .nil) => do
      let q ← mapSet n [] entry val
      .ok (ps.set i (k, .map q))
    | some (k, .map q) => do
      let q ← mapSet n q entry val
      .ok (ps.set i (k, .map q))
    | some _ => .abort

/-- The value of `m[k]` (lube/var.cpp:735-753).  What the call does to the map `m` is left out, as it
    is used only for keys the map holds. -/
def valueAt (n : Nat) (q : List (Val × Val)) (k : Val) : Outcome Val := do
  let (q, i) ← mapRef n q k
  match i with
  | none => .ok .nil
  | some i =>
    match q[i]? with
    | none => .ub .outOfBounds
    | some p => .ok p.2

/-- The inner loop of `Config::configFile` (lube/config.cpp:153-157) over the entries `es` of the
    section `q` of the file. -/
def mergeEntries (n : Nat) (sec : Val) (q : List (Val × Val)) :
    List (Val × Val) → List (Val × Val) → Outcome (List (Val × Val))
  | ps, [] => .ok ps
  | ps, e :: es => do
    let v ← valueAt n q e.1
    let ps ← assign n ps sec e.1 v
    mergeEntries n sec q ps es

/-- The outer loop (lube/config.cpp:149-158) over the sections of the file.  What the reader returns
    has only maps as sections; the last case does not occur. -/
def mergeSections (n : Nat) : List (Val × Val) → List (Val × Val) → Outcome (List (Val × Val))
  | ps, [] => .ok ps
  | ps, (sec, .map q) :: rest => do
    let ps ← mergeEntries n sec q ps q
    mergeSections n ps rest
  | _, _ :: _ => .abort

/-- `Config::configFile` for a file with the given bytes (lube/config.cpp:141-159); that the module
    is found and the file opened is taken for granted.  `fill` and `fuel` are those of `Ini.read`. -/
def configFile (fill : UInt8) (n fuel : Nat) (st : State) (content : Bytes) : Outcome State := do
  let cnf ← Ini.read fill n fuel content
  let ps ← mergeSections n st.conf cnf
  .ok { st with conf := ps }

/-- `sConfig[sec]` read as a value: the store afterwards, with an entry made for a new section, and the
    section (lube/config.cpp:167, 172, 187, 196; lube/var.cpp:735-753). -/
def section_ (n : Nat) (ps : List (Val × Val)) (sec : Val) : Outcome (List (Val × Val) × Val) := do
  let (ps, i) ← mapRef n ps sec
  match i with
  | none => .ok (ps, .nil)
  | some i =>
    match ps[i]? with
    | none => .ub .outOfBounds
    | some p => .ok (ps, p.2)

/-- `Config::configSection` on object `o` (lube/config.cpp:161-168). -/
def configSection (n : Nat) (st : State) (o : Nat) (sec : Val) : Outcome State := do
  let (ps, _) ← section_ n st.conf sec
  .ok ⟨ps, st.secs.set o sec⟩

/-- `Config::Config` (lube/config.cpp:132-139): a further object. -/
def create (n : Nat) (st : State) (sec : Val) : Outcome State :=
  configSection n { st with secs := st.secs ++ [.nil] } st.secs.length sec

/-- `mSection` of object `o` (lube/config.h:69); an object that was not created is a bad pointer. -/
def State.sec (st : State) (o : Nat) : Outcome Val :=
  match st.secs[o]? with
  | some s => .ok s
  | none => .ub .badPointer

/-- `Config::configSet` (lube/config.cpp:178-183). -/
def configSet (n : Nat) (st : State) (o : Nat) (entry val : Val) : Outcome State := do
  let sec ← st.sec o
  if !sec.defined then .ok st
  else
    let ps ← assign n st.conf sec entry val
    .ok { st with conf := ps }

/-- `if (sec && sec.index(iEntry)) … sec[iEntry]` (lube/config.cpp:173-174, 188-189, 197-198): the value
    found, or `none`.  Sections are nil or maps; the last case does not occur. -/
def find (n : Nat) (sec entry : Val) : Outcome (Option Val) :=
  match sec with
  | .nil => .ok none
  | .map q => do
    let i ← index n (.map q) entry
    if i < 0 then .ok none
    else
      let v ← valueAt n q entry
      .ok (some v)
  | _ => .abort

/-- What `Config::config` looks up (lube/config.cpp:172-175, 187-190, 196-199). -/
def lookup (n : Nat) (st : State) (o : Nat) (entry : Val) : Outcome (State × Option Val) := do
  let sec ← st.sec o
  let (ps, s) ← section_ n st.conf sec
  let v ← find n s entry
  .ok ({ st with conf := ps }, v)

/-- `Config::config(var)` (lube/config.cpp:170-176). -/
def config (n : Nat) (st : State) (o : Nat) (entry : Val) : Outcome (State × Val) := do
  let (st, v) ← lookup n st o entry
  match v with
  | some v => .ok (st, v)
  | none => .ok (st, .nil)

/-- `Config::config<T>(var, T)` (lube/config.cpp:185-205); `cast` is `str()` or `cast<T>()`
    (lube/var.cpp:194-200, 646-700). -/
def configT {T : Type} (cast : Val → Outcome T) (n : Nat) (st : State) (o : Nat) (entry : Val)
    (dflt : T) : Outcome (State × T) := do
  let (st, v) ← lookup n st o entry
  match v with
  | some v => do
    let t ← cast v
    .ok (st, t)
  | none => .ok (st, dflt)

/-- What a program does with configurations: the calls above. -/
inductive Call where
  | create (sec : Val)
  | select (o : Nat) (sec : Val)
  | file (content : Bytes)
  | set (o : Nat) (entry val : Val)
  | look (o : Nat) (entry : Val)

/-- One call (lube/config.cpp:132-183). -/
def Call.run (fill : UInt8) (n fuel : Nat) (st : State) : Call → Outcome State
  | .create sec => Config.create n st sec
  | .select o sec => do
    let _ ← st.sec o
    configSection n st o sec
  | .file content => configFile fill n fuel st content
  | .set o entry val => configSet n st o entry val
  | .look o entry => do
    let (st, _) ← config n st o entry
    .ok st

/-- A sequence of calls (lube/config.cpp:132-183). -/
def runAll (fill : UInt8) (n fuel : Nat) : State → List Call → Outcome State
  | st, [] => .ok st
  | st, c :: cs => do
    let st ← c.run fill n fuel st
    runAll fill n fuel st cs

end Libube.Config

import Verif.Model.GetLine
import Verif.Model.StringFns
import Verif.Model.MapOps
import Verif.Model.Cast

/-! # lube/gedfile.cpp: reading GEDCOM files

Messages on the standard output are left out. -/

namespace Libube.Ged

open Libube Libube.CString Libube.StringFns

/-- `GEDCOM::tokenType` (lube/gedfile.cpp:43-70). -/
inductive Tok where
  | CONT | CONC | HEAD | TRLR | INDI | FAM | SUBM | NAME | TITL | SEX | FAMC | FAMS | BIRT | DEAT | CHR | BURI | PLAC
  | DATE | OCCU | NOTE | HUSB | WIFE | CHIL | MARR | DIV | REFN
  deriving DecidableEq

/-- The characters of the keys of `mTokenMap` (lube/gedfile.cpp:90-115). -/
def tokenTable : List (Bytes × Tok) :=
  [([67, 79, 78, 84], .CONT), ([67, 79, 78, 67], .CONC), ([72, 69, 65, 68], .HEAD), ([84, 82, 76, 82], .TRLR),
   ([73, 78, 68, 73], .INDI), ([70, 65, 77], .FAM), ([83, 85, 66, 77], .SUBM), ([78, 65, 77, 69], .NAME),
   ([84, 73, 84, 76], .TITL), ([83, 69, 88], .SEX), ([70, 65, 77, 67], .FAMC), ([70, 65, 77, 83], .FAMS),
   ([66, 73, 82, 84], .BIRT), ([68, 69, 65, 84], .DEAT), ([67, 72, 82], .CHR), ([66, 85, 82, 73], .BURI),
   ([80, 76, 65, 67], .PLAC), ([68, 65, 84, 69], .DATE), ([79, 67, 67, 85], .OCCU), ([78, 79, 84, 69], .NOTE),
   ([72, 85, 83, 66], .HUSB), ([87, 73, 70, 69], .WIFE), ([67, 72, 73, 76], .CHIL), ([77, 65, 82, 82], .MARR),
   ([68, 73, 86], .DIV), ([82, 69, 70, 78], .REFN)]

/-- `knownToken` and the value in `mTokenMap` (lube/gedfile.cpp:179-185).  The map is a finite map (C33); the fields of a line
    hold no NUL characters. -/
def token (t : Bytes) : Option Tok := (tokenTable.find? (fun p => p.1 == t)).map Prod.snd

/-- The map of an individual (lube/gedfile.cpp:120-135), by its three keys. -/
structure Indi where
  name : Val := .nil
  titl : Val := .nil
  sex : Val := .nil

/-- The map of a family (lube/gedfile.cpp:138-153), by its three keys. -/
structure Fam where
  husb : Val := .nil
  wife : Val := .nil
  chil : Val := .nil

/-- The members of the reader (lube/gedfile.cpp:39-41, 71-73): the bytes of the stream not read yet, `mField`, the arrays in `mVar`
    and `mIndividualMap`, which is nil as long as it has no entry.  `mFamilyMap` is never read. -/
structure St where
  rest : Bytes
  field : List Bytes
  inds : List Indi
  fams : List Fam
  imap : List (Val × Val)

/-- A new reader (lube/gedfile.cpp:87-117). -/
def St.init : St := ⟨[], [], [], [], []⟩

/-- `mField.shift()` (lube/var.cpp:1157-1163); of an empty array it is undefined (C44).  Of nil, which `mField` is before the first
    line only, it is nil (1162), and the cast to a number that follows is undefined (lube/var.cpp:34-44); the two are not told apart. -/
def shift (s : St) : Outcome (Bytes × St) :=
  match s.field with
  | [] => .ub .outOfBounds
  | f :: fs => .ok (f, { s with field := fs })

/-- The first part of `GEDCOM::readLine` (lube/gedfile.cpp:158-162): at the end of the file the fields of the former line stay. -/
def nextLine (fill : UInt8) (s : St) : Outcome St := do
  match ← GetLine.getline fill [] s.rest with
  | (none, rest) => .ok { s with rest := rest }
  | (some l, rest) => do
    let field ← split (l.length + 1) l [32] 0
    .ok { s with rest := rest, field := field }

/-- `GEDCOM::readLine` (lube/gedfile.cpp:156-167). -/
def readLine (fill : UInt8) (s : St) : Outcome (Int × St) := do
  let s ← nextLine fill s
  let (f, s) ← shift s
  let l ← castInt (.chars f)
  .ok (l.toInt, s)

/-- `GEDCOM::doHeader`, `GEDCOM::doSubmitter` and `GEDCOM::doContinue` (lube/gedfile.cpp:248-270, 407-428), which differ in
    messages only.  The first number bounds the iterations. -/
def skip (fill : UInt8) (iLevel : Int) : Nat → St → Outcome (Int × St)
  | 0, _ => .diverge
  | n + 1, s => do
    let (level, s) ← readLine fill s
    if level ≥ iLevel then skip fill iLevel n s else .ok (level, s)

/-- The loop of `GEDCOM::doBirth` (lube/gedfile.cpp:322-353) with the variable `level`. -/
def birth (fill : UInt8) (iLevel : Int) : Nat → Int → St → Outcome (Int × St)
  | 0, _, _ => .diverge
  | n + 1, level, s => do
    let (t, s) ← shift s
    match token t with
    | none => .ok (level, s)
    | some .CONT | some .CONC => do
      let (level, s) ← skip fill level n s
      if level ≥ iLevel then birth fill iLevel n level s else .ok (level, s)
    | some _ => do
      let (level, s) ← readLine fill s
      if level ≥ iLevel then birth fill iLevel n level s else .ok (level, s)

/-- The loop of `GEDCOM::doIndividual` (lube/gedfile.cpp:272-320) with the variable `level`.  The map of the individual has been added to
    the array of individuals before it is filled, and shares its entries; it is a value here and added afterwards.  The level
    returned is not used by the caller. -/
def indi (fill : UInt8) (iLevel : Int) : Nat → Int → Indi → St → Outcome (Indi × St)
  | 0, _, _, _ => .diverge
  | n + 1, level, p, s => do
    let (t, s) ← shift s
    match token t with
    | none => .ok (p, s)
    | some .BIRT | some .DEAT | some .CHR | some .BURI => do
      let (level, s) ← readLine fill s
      if level > iLevel then do
        let (level, s) ← birth fill level n level s
        if level ≥ iLevel then indi fill iLevel n level p s else .ok (p, s)
      else if level ≥ iLevel then indi fill iLevel n level p s else .ok (p, s)
    | some .CONT | some .CONC => do
      let (level, s) ← skip fill level n s
      if level ≥ iLevel then indi fill iLevel n level p s else .ok (p, s)
    | some t => do
      let x := Val.chars (join s.field [32])
      let p := match t with
        | .NAME => { p with name := x }
        | .TITL => { p with titl := x }
        | .SEX => { p with sex := x }
        | _ => p
      let (level, s) ← readLine fill s
      if level ≥ iLevel then indi fill iLevel n level p s else .ok (p, s)

/-- `mIndividualMap.at(indiv)` (lube/var.cpp:829-841, 1254-1261); nil if there is no such individual.  The number is the depth
    granted to comparisons. -/
def find (d : Nat) (s : St) (x : Bytes) : Outcome Val :=
  if s.imap = [] then .thrown (.error "var::at(): uninitialised") else mapAt d s.imap (.chars x)

/-- A line that refers to an individual (lube/gedfile.cpp:368-388): `f` gets its position. -/
def link (d : Nat) (f : Val → Outcome Fam) (p : Fam) (s : St) : Outcome (Fam × St) := do
  let (x, s) ← shift s
  match ← find d s x with
  | .nil => .ok (p, s)
  | v => do
    let i ← castInt v
    let p ← f (.int i)
    .ok (p, s)

/-- The loop of `GEDCOM::doFamily` (lube/gedfile.cpp:355-405) with the variable `level`; as for `indi`. -/
def fam (fill : UInt8) (d : Nat) (iLevel : Int) : Nat → Int → Fam → St → Outcome (Fam × St)
  | 0, _, _, _ => .diverge
  | n + 1, level, p, s => do
    let (t, s) ← shift s
    match token t with
    | none => .ok (p, s)
    | some .MARR => do
      let (level, s) ← readLine fill s
      let (level, s) ← birth fill level n level s
      if level ≥ iLevel then fam fill d iLevel n level p s else .ok (p, s)
    | some t => do
      let (p, s) ← match t with
        | .HUSB => link d (fun v => .ok { p with husb := v }) p s
        | .WIFE => link d (fun v => .ok { p with wife := v }) p s
        | .CHIL => link d (fun v => do let c ← push p.chil v; .ok { p with chil := c }) p s
        | _ => .ok (p, s)
      let (level, s) ← readLine fill s
      if level ≥ iLevel then fam fill d iLevel n level p s else .ok (p, s)

/-- A record that begins with a cross reference (lube/gedfile.cpp:193-223); `none` if the tag is not known. -/
def record (fill : UInt8) (d : Nat) (fuel : Nat) (s : St) : Outcome (Option St) := do
  let (xref, s) ← shift s
  let (t, s) ← shift s
  match token t with
  | none => .ok none
  | some .SUBM => do
    let (level, s) ← readLine fill s
    let (_, s) ← skip fill level fuel s
    .ok (some s)
  | some .INDI => do
    let imap ← mapSet d s.imap (.chars xref) (.int (BitVec.ofNat 32 s.inds.length))
    let (level, s) ← readLine fill { s with imap := imap }
    let (p, s) ← indi fill level fuel level {} s
    .ok (some { s with inds := s.inds ++ [p] })
  | some .FAM => do
    let (level, s) ← readLine fill s
    let (p, s) ← fam fill d level fuel level {} s
    .ok (some { s with fams := s.fams ++ [p] })
  | some _ => .ok (some s)

/-- The loop of `GEDCOM::doFile` (lube/gedfile.cpp:187-246) with the variable `level`.  If there is no field, `mField[0][0]` makes
    `mField` the array of an array of nil (lube/var.cpp:711-721), which is not '@', and not a known token either; an empty string
    gets a NUL character likewise.  In both cases the function returns at line 229. -/
def file (fill : UInt8) (d : Nat) (iLevel : Int) : Nat → Int → St → Outcome St
  | 0, _, _ => .diverge
  | n + 1, level, s =>
    match s.field with
    | [] | [] :: _ => .ok s
    | (c :: _) :: _ => do
      if c = 64 then do
        match ← record fill d n s with
        | none => .ok s
        | some s => if level ≥ iLevel then file fill d iLevel n level s else .ok s
      else do
        let (t, s) ← shift s
        match token t with
        | none | some .TRLR => .ok s
        | some .HEAD => do
          let (level, s) ← readLine fill s
          let (level, s) ← skip fill level n s
          if level ≥ iLevel then file fill d iLevel n level s else .ok s
        | some _ => if level ≥ iLevel then file fill d iLevel n level s else .ok s

/-- "NAME" (lube/gedfile.cpp:130). -/
def nameKey : Val := .chars [78, 65, 77, 69]
/-- "TITL" (lube/gedfile.cpp:131). -/
def titlKey : Val := .chars [84, 73, 84, 76]
/-- "SEX" (lube/gedfile.cpp:132). -/
def sexKey : Val := .chars [83, 69, 88]
/-- "HUSB" (lube/gedfile.cpp:148). -/
def husbKey : Val := .chars [72, 85, 83, 66]
/-- "WIFE" (lube/gedfile.cpp:149). -/
def wifeKey : Val := .chars [87, 73, 70, 69]
/-- "CHIL" (lube/gedfile.cpp:150). -/
def chilKey : Val := .chars [67, 72, 73, 76]
/-- "Individual" (lube/gedfile.cpp:210-211). -/
def individualKey : Val := .chars [73, 110, 100, 105, 118, 105, 100, 117, 97, 108]
/-- "Family" (lube/gedfile.cpp:216-217). -/
def familyKey : Val := .chars [70, 97, 109, 105, 108, 121]

/-- The map of an individual, keys ascending (lube/gedfile.cpp:120-135). -/
def Indi.val (p : Indi) : Val := .map [(nameKey, p.name), (sexKey, p.sex), (titlKey, p.titl)]

/-- The map of a family, keys ascending (lube/gedfile.cpp:138-153). -/
def Fam.val (p : Fam) : Val := .map [(chilKey, p.chil), (husbKey, p.husb), (wifeKey, p.wife)]

/-- `mVar` (lube/gedfile.cpp:210-211, 216-217): nil if there are no records, else a map with an array for each kind of record that
    occurs. -/
def St.val (s : St) : Val :=
  match s.fams, s.inds with
  | [], [] => .nil
  | [], p :: ps => .map [(individualKey, .arr ((p :: ps).map Indi.val))]
  | f :: fs, [] => .map [(familyKey, .arr ((f :: fs).map Fam.val))]
  | f :: fs, p :: ps => .map [(familyKey, .arr ((f :: fs).map Fam.val)), (individualKey, .arr ((p :: ps).map Indi.val))]

/-- `GEDCOM::loadFile` (lube/gedfile.cpp:169-177) of a file with the given bytes, with a reader that may have read others before;
    opening is taken to succeed.  The numbers bound the depth of comparisons and the iterations. -/
def load (fill : UInt8) (d fuel : Nat) (content : Bytes) (s : St) : Outcome St := do
  let (level, s) ← readLine fill { s with rest := content }
  file fill d level fuel level s

/-- `GEDCOM::read` (lube/gedfile.cpp:431-434). -/
def read (fill : UInt8) (d fuel : Nat) (content : Bytes) : Outcome Val := do
  let s ← load fill d fuel content .init
  .ok s.val

end Libube.Ged

namespace Libube.Ged

open Libube Libube.CString

/-- `GEDCOM::read` called twice on one reader (lube/gedfile.cpp:431-434): the result of the second call. -/
def readAgain (fill : UInt8) (d fuel : Nat) (first second : Bytes) : Outcome Val := do
  let s ← load fill d fuel first .init
  let s ← load fill d fuel second s
  .ok s.val

end Libube.Ged

import Verif.Model.StringFns

/-! # lube/string.cpp: classification of characters as the C standard defines it

Model/StringFns takes `isspace`, `toupper` and `tolower` to be defined for all characters, as they are in the GNU library.  By the standard (C11, 7.4) they are defined for
-1 (`EOF`) and 0 to 255 only, and a `char` passed to them is negative for bytes from 128 on where `char` is signed. -/

namespace Libube.Ctype

open Libube Libube.CString

/-- A `char` converted to `int` (lube/string.cpp:182, 186, 194, 236, 239, 330, 344). -/
def arg (signed : Bool) (b : UInt8) : Int :=
  if signed && decide (128 ≤ b) then (b.toNat : Int) - 256 else b.toNat

/-- `std::isspace` (lube/string.cpp:182, 186, 194, 236, 239). -/
def isspace (c : Int) : Outcome Bool :=
  if c = -1 then .ok false
  else if 0 ≤ c ∧ c ≤ 255 then .ok (CString.isspace (UInt8.ofNat c.toNat))
  else .ub .outOfBounds

/-- `std::toupper` and `std::tolower` (lube/string.cpp:330, 344) with the table given, and the conversion of the result to `char`. -/
def mapped (f : UInt8 → UInt8) (c : Int) : Outcome UInt8 :=
  if c = -1 then .ok 255
  else if 0 ≤ c ∧ c ≤ 255 then .ok (f (UInt8.ofNat c.toNat))
  else .ub .outOfBounds

/-- The loops of `ToUpper::string` and `ToLower::string` (lube/string.cpp:328-330, 342-344). -/
def mapLoop (signed : Bool) (f : UInt8 → UInt8) : Bytes → Outcome Bytes
  | [] => .ok []
  | b :: s => do
    let c ← mapped f (arg signed b)
    let r ← mapLoop signed f s
    .ok (c :: r)

/-- `ToUpper::string` (lube/string.cpp:319-331). -/
def upper (signed : Bool) (s : Bytes) : Outcome Bytes := mapLoop signed CString.toupper s

/-- `ToLower::string` (lube/string.cpp:333-345). -/
def lower (signed : Bool) (s : Bytes) : Outcome Bytes := mapLoop signed CString.tolower s

/-- How many characters `while (isspace(*p)) { ++p; }` passes (lube/string.cpp:182, 194, 236, 239).  At the end there is a NUL, or the loop ends (236, 239). -/
def spaces (signed : Bool) : Bytes → Outcome Nat
  | [] => .ok 0
  | b :: s => do
    if ← isspace (arg signed b) then do
      let n ← spaces signed s
      .ok (n + 1)
    else .ok 0

/-- How many characters `while (*p && !isspace(*p)) { ++p; }` passes (lube/string.cpp:186). -/
def others (signed : Bool) : Bytes → Outcome Nat
  | [] => .ok 0
  | b :: s => do
    if ← isspace (arg signed b) then .ok 0
    else do
      let n ← others signed s
      .ok (n + 1)

/-- The loop of the white space split (lube/string.cpp:183-203); the first number bounds the iterations. -/
def wordsLoop (signed : Bool) : Nat → Bytes → Int → List Bytes → Outcome (List Bytes)
  | 0, _, _, _ => .diverge
  | fuel + 1, p, iMax, r =>
    if p = [] then .ok r
    else do
      let len ← others signed p
      let r := if len > 0 then r ++ [p.take len] else r
      let n ← spaces signed (p.drop len)
      let p := (p.drop len).drop n
      if iMax ≠ 0 ∧ (r.length : Int) ≥ iMax - 1 ∧ p ≠ [] then .ok (r ++ [p])
      else wordsLoop signed fuel p iMax r

/-- `var::split(int iMax)` (lube/string.cpp:177-206). -/
def splitWords (signed : Bool) (fuel : Nat) (s : Bytes) (iMax : Int) : Outcome (List Bytes) := do
  let n ← spaces signed (cstr s)
  wordsLoop signed fuel ((cstr s).drop n) iMax []

/-- `Strip::string` in place (lube/string.cpp:230-249): the two loops, then as in Model/StringFns. -/
def strip (signed : Bool) (s : Bytes) : Outcome Bytes := do
  let _ ← spaces signed s
  let _ ← spaces signed s.reverse
  StringFns.stripInPlace s

end Libube.Ctype

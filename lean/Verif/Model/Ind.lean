import Verif.Model.Outcome

/-! # lube/ind.h: the index type, and the reference encoding that uses it -/

namespace Libube.Ind

open Libube

/-- Values of `ind`: an `intptr_t`, 64 bits here (lube/ind.h:34-46, member at 46). -/
abbrev Ind := BitVec 64

/-- `ind::operator bool` (lube/ind.h:38). -/
def toBool (x : Ind) : Bool := if x.slt 0#64 then false else true

/-- Largest `intptr_t`; `mInt+1` overflows there (lube/ind.h:44). -/
def maxInd : Ind := 0x7fffffffffffffff#64

/-- `ind::operator ~`, `-(mInt+1)` (lube/ind.h:44).  The addition is signed, so it is
    undefined for the largest value; the negation cannot overflow afterwards because
    `mInt+1` is never the smallest value. -/
def compl (x : Ind) : Outcome Ind :=
  if x = maxInd then .ub .overflow else .ok (-(x + 1#64))

/-- The value a two's complement machine computes for `-(mInt+1)` when overflow
    wraps (lube/ind.h:44 compiled without overflow trapping). -/
def complWrap (x : Ind) : Ind := -(x + 1#64)

/-- `v.mType = -iIndex-1` in `var::reference(int)` (lube/var.cpp:1254-1261): an array
    position is stored as a negative type.  `iIndex` is an `int`, sign extended to `ind`;
    `-iIndex` is computed on `int` and overflows for the smallest `int`. -/
def encodeRef (i : BitVec 32) : Outcome Ind :=
  if i = 0x80000000#32 then .ub .overflow
  else .ok ((-i - 1#32).signExtend 64)

/-- `var::reference()`: `return !mType` (lube/var.h:221). -/
def isRef (t : Ind) : Bool := !toBool t

end Libube.Ind

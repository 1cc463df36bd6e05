import Verif.Model.CString

/-! # lube/stream.cpp: the stream buffer over a string -/

namespace Libube.VarBuf

open Libube Libube.CString

/-- `varbuf` over a string: the characters of `mVar`, and `mInd` (lube/var.h:246-262).  `int`
    overflow of the size is left out. -/
structure Buf where
  data : Bytes
  ind : Int
  deriving DecidableEq, Repr

/-- `varbuf::varbuf` over a string, or over nil, which becomes the empty string
    (lube/stream.cpp:19-36). -/
def Buf.init (s : Bytes) : Buf := ⟨s, 0⟩

/-- `traits_type::eof()` -/
def eof : Int := -1

/-- `get<char>()` converted to `int` on return (lube/stream.cpp:59, 67, 76): `char` is signed. -/
def charInt (b : UInt8) : Int := b.toInt8.toInt

/-- What the callers of `uflow`, `underflow` and `pbackfail` in the standard library make of the
    `int`: end of file if it is `eof()`, otherwise the character `to_char_type` gives. -/
def asChar (i : Int) : Option UInt8 :=
  if i = eof then none else some (UInt8.ofInt i)

/-- `mVar[i].get<char>()` for `i < size`: a negative index throws (lube/var.cpp:713-714). -/
def Buf.elem (v : Buf) (i : Int) : Outcome Int :=
  if i < 0 then .thrown (.error "operator [int]: Negative index")
  else match v.data[i.toNat]? with
    | some b => .ok (charInt b)
    | none => .ub .outOfBounds

/-- `varbuf::overflow`, called by `sputc` with the character as an `unsigned char` value
    (lube/stream.cpp:39-48): `push` appends the character (lube/var.cpp:1080-1088). -/
def Buf.overflow (v : Buf) (iInt : Int) : Outcome (Int × Buf) :=
  if iInt ≠ eof then .ok (iInt, { v with data := v.data ++ [UInt8.ofInt iInt] })
  else .ok (iInt, v)

/-- `varbuf::uflow` (lube/stream.cpp:50-61), reached from `sbumpc`. -/
def Buf.uflow (v : Buf) : Outcome (Int × Buf) :=
  if v.ind < v.data.length then do
    let c ← v.elem v.ind
    .ok (c, { v with ind := v.ind + 1 })
  else .ok (eof, v)

/-- `varbuf::underflow` (lube/stream.cpp:63-69), reached from `sgetc`. -/
def Buf.underflow (v : Buf) : Outcome (Int × Buf) :=
  if v.ind < v.data.length then do
    let c ← v.elem v.ind
    .ok (c, v)
  else .ok (eof, v)

/-- `varbuf::pbackfail` (lube/stream.cpp:71-78), reached from `sungetc`. -/
def Buf.pbackfail (v : Buf) : Outcome (Int × Buf) :=
  if v.ind > 0 then do
    let c ← v.elem (v.ind - 1)
    .ok (c, { v with ind := v.ind - 1 })
  else .ok (eof, v)

/-- `varbuf::seekpos` (lube/stream.cpp:80-88). -/
def Buf.seekpos (v : Buf) (iPos : Int) : Outcome (Int × Buf) :=
  if iPos < v.data.length then .ok (iPos, { v with ind := iPos })
  else .ok (iPos, v)

/-- The calls of `std::streambuf` that reach `varbuf`: it has no buffer of its own
    (`setp(0,0)`, `setg(0,0,0)`, lube/stream.cpp:33-34), so each ends in one virtual function. -/
inductive Op where
  | put (b : UInt8)
  | get
  | peek
  | unget
  | seek (p : Int)
  deriving DecidableEq, Repr

/-- One call (lube/stream.cpp:39-88). -/
def Buf.step (v : Buf) : Op → Outcome (Int × Buf)
  | .put b => v.overflow b.toNat
  | .get => v.uflow
  | .peek => v.underflow
  | .unget => v.pbackfail
  | .seek p => v.seekpos p

/-- A sequence of calls: results in order, final state (lube/stream.cpp:39-88). -/
def Buf.run (v : Buf) : List Op → Outcome (List Int × Buf)
  | [] => .ok ([], v)
  | op :: ops => do
    let (r, v) ← v.step op
    let (rs, v) ← v.run ops
    .ok (r :: rs, v)

end Libube.VarBuf

import Verif.Model.CString
import Verif.Model.Value

/-! # lube/string.cpp: getline; lube/txtfile.cpp -/

namespace Libube.GetLine

open Libube Libube.CString

/-- `var::resize` on a character array (lube/var.cpp:940-944, lube/heap.cpp:225-271): the first
    `n` characters are kept; characters gained have whatever value the memory holds (`fill`; one
    value stands for all of them).  The terminator behind is not shown. -/
def resizeChars (fill : UInt8) (buf : Bytes) (n : Nat) : Bytes :=
  buf.take n ++ List.replicate (n - buf.length) fill

/-- `str[read] = c` (lube/string.cpp:130).  The array has room for `size` characters; writing
    elsewhere is undefined (the byte for the terminator is not counted as room). -/
def store (buf : Bytes) (read : Nat) (c : UInt8) : Outcome Bytes :=
  if read < buf.length then .ok (buf.set read c) else .ub .outOfBounds

/-- The growth step (lube/string.cpp:131-136): new buffer and new `size`.  `int` overflow of
    `size` (lines of 2^30 characters) is left out. -/
def grow (fill : UInt8) (buf : Bytes) (read size : Nat) : Bytes × Nat :=
  if read = size then
    let size := (size + 1) * 2 - 1
    (resizeChars fill buf size, size)
  else (buf, size)

/-- The loop of `var::getline` (lube/string.cpp:124-137) on the unread bytes of the stream.
    `get()` at the end of the stream sets `eof` and returns -1, which as a `char` is 0xFF; it is
    stored like any other character and ends the loop.  Result: buffer, `read`, unread bytes. -/
def loop (fill : UInt8) (buf : Bytes) (read size : Nat) : Bytes → Outcome (Bytes × Nat × Bytes)
  | [] => do
    let buf ← store buf read 0xFF
    let (buf, _) := grow fill buf (read + 1) size
    .ok (buf, read + 1, [])
  | c :: rest =>
    if c = 10 then .ok (buf, read, rest)
    else do
      let buf ← store buf read c
      let (buf, size) := grow fill buf (read + 1) size
      loop fill buf (read + 1) size rest

/-- `var::getline` (lube/string.cpp:106-140): `old` is the variable's former string content
    (empty if it was nil or no string, 114-115), `rest` the unread bytes of the stream.  `none`
    is nil, returned if `peek()` finds the end of the stream.  Result: line and unread bytes. -/
def getline (fill : UInt8) (old rest : Bytes) : Outcome (Option Bytes × Bytes) :=
  if rest = [] then .ok (none, [])
  else do
    let (buf, read, rest) ← loop fill (resizeChars fill old 63) 0 63 rest
    .ok (some (resizeChars fill buf read), rest)

/-- `while (f.getline(is)) o.push(f.copy());` (lube/txtfile.cpp:41-42): the lines pushed.
    The first number bounds the iterations; exceeding it is `diverge`. -/
def readLoop (fill : UInt8) : Nat → Bytes → Bytes → List Bytes → Outcome (List Bytes)
  | 0, _, _, _ => .diverge
  | fuel + 1, old, rest, o => do
    match ← getline fill old rest with
    | (none, _) => .ok o
    | (some f, rest) => readLoop fill fuel f rest (o ++ [f])

/-- What the variable `o` holds after pushing these strings onto nil: pushing a string makes an
    array of vars (lube/var.cpp:1066-1089, 927-930); nil if nothing was pushed. -/
def pushed : List Bytes → Val
  | [] => .nil
  | xs => .arr (xs.map .chars)

/-- `txtfile::read` of a file with the given bytes (lube/txtfile.cpp:33-44); opening is taken to
    succeed. -/
def readText (fill : UInt8) (fuel : Nat) (content : Bytes) : Outcome Val := do
  let o ← readLoop fill fuel [] content []
  .ok (pushed o)

/-- `os << x` for a string (lube/json.cpp:286-291, 242-248, 297-301): quotation marks around the
    characters up to the first NUL. -/
def quoted (x : Bytes) : Bytes := 34 :: cstr x ++ [34]

/-- `txtfile::write` of an array of strings (lube/txtfile.cpp:46-53): the bytes of the file. -/
def writeText (xs : List Bytes) : Bytes := xs.flatMap (fun x => quoted x ++ [10])

end Libube.GetLine

import Verif.Model.Outcome

/-! # lube/utf8.cpp: code point length of a string -/

namespace Libube.Utf8

open Libube

/-- Reading byte `i` of an allocated block; anything else is out of bounds
    (the subscripts `iStr[i]` in lube/utf8.cpp:50-66). -/
def rd (mem : List UInt8) (i : Nat) : Outcome UInt8 :=
  match mem[i]? with
  | some b => .ok b
  | none => .ub .outOfBounds

/-- The continuation byte loop (lube/utf8.cpp:65-67): `i` is the loop variable, `n` the number
    of iterations left (`len - i`). -/
def contLoop (mem : List UInt8) (p i : Nat) : Nat → Outcome Bool
  | 0 => .ok true
  | n + 1 => do
    let b ← rd mem (p + i)
    if b &&& 0xC0 ≠ 0x80 then .ok false
    else contLoop mem p (i + 1) n

/-- `utf8len(iStr)` with `iStr` pointing to position `p` of the block (lube/utf8.cpp:47-71). -/
def utf8len (mem : List UInt8) (p : Nat) : Outcome Nat := do
  let b ← rd mem p
  if b &&& 0x80 = 0x00 then .ok 1
  else
    let len :=
      if b &&& 0xE0 = 0xC0 then 2
      else if b &&& 0xF0 = 0xE0 then 3
      else if b &&& 0xF8 = 0xF0 then 4
      else 0
    if len = 0 then .ok 0
    else
      let good ← contLoop mem p 1 (len - 1)
      if good then .ok len else .ok 0

/-- The loop of `var::len` (lube/utf8.cpp:83-93) over the block `mem` of a string of
    `size` characters. -/
def lenLoop (mem : List UInt8) (size clen : Nat) (code : Nat) : Outcome Int :=
  if h : clen < size then
    match utf8len mem clen with
    | .ok 0 => .ok (-1)
    | .ok (l + 1) => lenLoop mem size (clen + (l + 1)) (code + 1)
    | .thrown e => .thrown e
    | .ub r => .ub r
    | .abort => .abort
    | .diverge => .diverge
  else if clen ≠ size then .ok (-1)
  else .ok code
termination_by size - clen

/-- `var::len()` of a string with the given characters (lube/utf8.cpp:76-94).  The allocated
    block is taken to be the characters and the NUL that `Heap::resize` puts behind them
    (lube/heap.cpp:267-268); the spare capacity behind the NUL is left out, so that reading it
    counts as out of bounds.  The non-`char` case (lines 78-79) just returns the size and is
    left out. -/
def len (s : List UInt8) : Outcome Int := lenLoop (s ++ [0]) s.length 0 0

end Libube.Utf8

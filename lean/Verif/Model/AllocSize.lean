import Verif.Model.Outcome

/-! # lube/heap.cpp: capacity policy of arrays -/

namespace Libube.Alloc

open Libube

/-- The `while (iSize > 0) { iSize >>= 1; size <<= 1; }` loop of `allocSize`
    (lube/heap.cpp:199-203).  `size` is a 32 bit `int`; shifting it out of range wraps
    (C++17 leaves the value implementation-defined; two's complement here). -/
def shiftLoop (iSize : Nat) (size : BitVec 32) : BitVec 32 :=
  if iSize > 0 then shiftLoop (iSize >>> 1) (size <<< 1) else size
termination_by iSize
decreasing_by simp [Nat.shiftRight_eq_div_pow]; omega

/-- `minSize` (lube/heap.cpp:191). -/
def minSize : Nat := 8

/-- `allocSize` (lube/heap.cpp:189-205).  The assertion at 192 is the `abort` outcome. -/
def allocSize (iSize : Int) : Outcome Int :=
  if iSize < 0 then .abort
  else
    let n := iSize.toNat
    let n := if n < minSize then minSize else n
    if n ≤ 2 then .ok n
    else .ok (shiftLoop (n - 1) 1#32).toInt

/-- The part of a `Heap` that governs allocation: `mSize`, `mCapacity`, and whether the
    element type is `char` (lube/heap.h members, lube/heap.cpp:41-48). -/
structure Cap where
  isChar : Bool
  size : Int
  capacity : Int
  /-- ghost: how often memory was obtained (`alloc` at heap.cpp:240 and 251) -/
  allocs : Nat
  deriving DecidableEq, Repr

/-- A fresh `Heap` (lube/heap.cpp:41-48): nothing allocated. -/
def Cap.fresh (isChar : Bool) : Cap := ⟨isChar, 0, 0, 0⟩

/-- `Heap::resize` as far as sizes are concerned (lube/heap.cpp:225-271).  The element
    data are left out here (they are in `Model/Mem`). -/
def Cap.resize (c : Cap) (iSize : Int) : Outcome Cap := do
  if c.capacity < 0 then .abort
  else
    let need := if c.isChar then iSize + 1 else iSize
    if c.capacity = 0 then
      let n ← allocSize need
      .ok { c with size := iSize, capacity := n, allocs := c.allocs + 1 }
    else
      let n ← allocSize need
      if c.capacity < n then
        .ok { c with size := iSize, capacity := n, allocs := c.allocs + 1 }
      else
        .ok { c with size := iSize }

/-- A sequence of resizes of one array. -/
def Cap.resizes (c : Cap) : List Int → Outcome Cap
  | [] => .ok c
  | n :: ns => do
    let c ← c.resize n
    c.resizes ns

end Libube.Alloc

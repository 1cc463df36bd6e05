import Verif.Model.Json
import Verif.Model.Kind
import Verif.Model.View

/-! # Printing of views (lube/json.cpp, `JSON::formatView`) -/

namespace Libube.Json

open View CString

/-- `iVar[i]` for a view, read (lube/var.cpp:711-721, lube/heap.h:204-206).  From an index beyond the end `resize` would be called, which
    changes the array that describes the view; that does not happen here and is undefined. -/
def item (a : Arr Val) (i : Int) : Outcome Val :=
  if i < 0 then .thrown (.error "operator [int]: Negative index")
  else do
    let s ← size a
    if i ≥ s then .ub .typePun
    else do
      let p ← locate a i
      load a.data p

/-- `iStream << x` for a reference `x` to an element of a view of an array with elements of type `k` (lube/json.cpp:242-282, 286-291).  `View` overrides `derefType` but not
    `deref` and `derefHeap` (lube/heap.h:194-240): an element that is a var has its type, but `heap()` is null (lube/heap.cpp:156-160), so that any array is written as nil, and `get<T>()`
    reads the var itself as if it were a number (lube/var.cpp:34-42). -/
def shown (k : Kind) (x : Val) : Outcome Bytes :=
  match k with
  | .cdouble => .thrown (.error "var::format(): cdouble should be array")
  | .var | .pair => if x.type = 0 then .ok (format 0 .nil) else .ub .typePun
  | _ => .ok (format 0 x)

/-- `iStream << iVar[i]` for a view (lube/json.cpp:395, 420). -/
def entry (k : Kind) (a : Arr Val) (i : Int) : Outcome Bytes := do
  let x ← item a i
  shown k x

/-- The elements of a view with less than two dimensions (lube/json.cpp:393-398) from element `i`, `n` to go; the size is `s`. -/
def lineLoop (k : Kind) (a : Arr Val) (s : Int) : Int → Nat → Outcome Bytes
  | _, 0 => .ok []
  | i, n + 1 => do
    let t ← entry k a i
    let rest ← lineLoop k a s (i + 1) n
    .ok (t ++ (if i ≠ s - 1 then [44, 32] else []) ++ rest)

/-- A row of a matrix (lube/json.cpp:418-425) from column `i`, `n` to go; `p` is the index of the first element of the row, `last` whether it is the last row.
    The index is not reduced to an `int`; it is less than the size of the view. -/
def rowLoop (k : Kind) (a : Arr Val) (p nCols : Int) (last : Bool) : Int → Nat → Outcome Bytes
  | _, 0 => .ok []
  | i, n + 1 => do
    let t ← entry k a (p + i)
    let rest ← rowLoop k a p nCols last (i + 1) n
    .ok (t ++ (if !last ∨ i ≠ nCols - 1 then [44] else []) ++ (if i ≠ nCols - 1 then [32] else []) ++ rest)

/-- The rows of matrix `k` (lube/json.cpp:414-427) from row `j`, `n` to go. -/
def matLoop (kind : Kind) (a : Arr Val) (ind : Nat) (nRows nCols k : Int) : Int → Nat → Outcome Bytes
  | _, 0 => .ok []
  | j, n + 1 => do
    let r ← rowLoop kind a (k * nRows * nCols + j * nCols) nCols (decide (j = nRows - 1)) 0 nCols.toNat
    let rest ← matLoop kind a ind nRows nCols k (j + 1) n
    .ok (spaces (ind + 2) ++ r ++ [10] ++ rest)

/-- The matrices (lube/json.cpp:411-433) from matrix `k`, `n` to go. -/
def tensorLoop (kind : Kind) (a : Arr Val) (ind : Nat) (nMats nRows nCols : Int) : Int → Nat → Outcome Bytes
  | _, 0 => .ok []
  | k, n + 1 => do
    let m ← matLoop kind a ind nRows nCols k 0 nRows.toNat
    let rest ← tensorLoop kind a ind nMats nRows nCols (k + 1) n
    .ok ([91, 10] ++ m ++ spaces ind ++ [93] ++ (if k ≠ nMats - 1 then [10] else []) ++ rest)

/-- The shape, written before a view of more than two dimensions (lube/json.cpp:380-385), from dimension `i`, `n` to go. -/
def headLoop (a : Arr Val) (nDim : Int) : Int → Nat → Outcome Bytes
  | _, 0 => .ok []
  | i, n + 1 => do
    let s ← shape a i
    let rest ← headLoop a nDim (i + 1) n
    .ok (showInt s ++ (if i ≠ nDim - 1 then [120] else []) ++ rest)

/-- The number of matrices (lube/json.cpp:404-406) from dimension `i`, `n` to go. -/
def matsLoop (a : Arr Val) (m : Int) : Int → Nat → Outcome Int
  | _, 0 => .ok m
  | i, n + 1 => do
    let s ← shape a i
    let m ← cint (m * s)
    matsLoop a m (i + 1) n

/-- `" tensor:"` -/
def tensorWord : Bytes := [32, 116, 101, 110, 115, 111, 114, 58]

/-- `JSON::formatView` (lube/json.cpp:372-434) for a view of an array with elements of type `kind`. -/
def formatView (kind : Kind) (ind : Nat) (a : Arr Val) : Outcome Bytes := do
  let d := dim a
  let h ← if d > 2 then headLoop a d 0 d else .ok []
  let h := if d > 2 then h ++ tensorWord ++ [10] else h
  if d < 2 then do
    let s ← size a
    let t ← lineLoop kind a s 0 s.toNat
    .ok (91 :: t ++ [93])
  else do
    let m ← matsLoop a 1 0 (d - 2)
    let r ← shape a (d - 2 : Nat)
    let c ← shape a (d - 1 : Nat)
    let t ← tensorLoop kind a ind m r c 0 m.toNat
    .ok (h ++ t)

end Libube.Json

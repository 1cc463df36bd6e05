import Verif.Model.Arith
import Verif.Model.Json

/-! # Plotting with gnuplot (lube/gnuplot.cpp)

The pipe to gnuplot accepts everything; what is written to it is the result.  What has been written before an exception is
not kept. -/

namespace Libube.Gnuplot

open Arith View CString

/-- An element of the array given to `write`: a string, a single character, a number, an array of numbers or a view of one; anything
    else, as nil, maps, arrays of vars or complex numbers (lube/gnuplot.cpp:86-95, 127-128; for nil the exception has another text, lube/var.cpp:637).  Views of
    characters are left out. -/
inductive Item (α : Type) where
  | cmd (s : Bytes)
  | chr (c : UInt8)
  | num (x : α)
  | arr (b : Ref)
  | other

/-- `gnuplot::puts` (lube/gnuplot.cpp:53-59). -/
def puts (s : Bytes) : Bytes := cstr s ++ [10]

/-- `line = iVar[i]` (lube/gnuplot.cpp:85 with lube/var.cpp:276-339): the variable `line`, as far as it holds an array of numbers, and the
    memory.  If it holds a view that the new value can be copied to, that is done. -/
def assign (line : Option Ref) (x : Item α) (m : Mem α) : Outcome (Option Ref × Mem α) :=
  match x, line with
  | .arr b, some v =>
    match v.ip with
    | none => .ok (some b, m)
    | some _ => do
      let (r, m) ← assignView v b m
      .ok (some r, m)
  | .arr b, none => .ok (some b, m)
  | _, _ => .ok (none, m)

/-- The loop over a vector (lube/gnuplot.cpp:101-106) from element `j`, `n` to go; `at` is lube/var.cpp:808-819. -/
def vector (sh : α → Bytes) (A : Arr α) (j : Int) : Nat → Outcome Bytes
  | 0 => .ok []
  | n + 1 => do
    let p ← locate A j
    let x ← load A.data p
    let rest ← vector sh A (j + 1) n
    .ok (puts (sh x) ++ rest)

/-- The loop over the rows of a matrix (lube/gnuplot.cpp:115-116) from row `i`, `n` to go, for column `j`. -/
def column (sh : α → Bytes) (A : Arr α) (j i : Int) : Nat → Outcome Bytes
  | 0 => .ok []
  | n + 1 => do
    let x ← get A i [j]
    let rest ← column sh A j (i + 1) n
    .ok (32 :: sh x ++ rest)

/-- The loop over the columns of a matrix (lube/gnuplot.cpp:113-118) from column `j`, `n` to go. -/
def columns (sh : α → Bytes) (A : Arr α) (r j : Int) : Nat → Outcome Bytes
  | 0 => .ok []
  | n + 1 => do
    let c ← column sh A j 0 r.toNat
    let rest ← columns sh A r (j + 1) n
    .ok (c ++ 10 :: rest)

/-- What is written for an array (lube/gnuplot.cpp:86, 92-128). -/
def plotArr (sh : α → Bytes) (b : Ref) (m : Mem α) : Outcome Bytes :=
  match b.kind with
  | .cfloat | .cdouble => .thrown (.error "gnuplot::write(): Unknown data type")
  | _ => do
    let A ← arrOf m b
    if dim A ≤ 1 then do
      let s ← size A
      let t ← vector sh A 0 s.toNat
      .ok (t ++ puts [101])
    else if dim A = 2 then do
      let r ← shape A 0
      let c ← shape A 1
      let t ← columns sh A r 0 c.toNat
      .ok (puts t ++ puts [101])
    else .thrown (.error "gnuplot::write(): Unknown dimension")

/-- What is written for the value in `line` (lube/gnuplot.cpp:86-129), which for an array is not the item itself but what has been assigned.  A single character has no
    text: `str` is empty (lube/var.cpp:194-200). -/
def plot (sh : α → Bytes) (x : Item α) (line : Option Ref) (m : Mem α) : Outcome Bytes :=
  match x, line with
  | .cmd s, _ => .ok (puts s)
  | .chr _, _ => .ok (puts [])
  | .num x, _ => .ok (puts (sh x) ++ puts [101])
  | .arr _, some v => plotArr sh v m
  | .arr b, none => plotArr sh b m
  | .other, _ => .thrown (.error "gnuplot::write(): Unknown data type")

/-- The loop over the items (lube/gnuplot.cpp:82-130). -/
def items (sh : α → Bytes) (line : Option Ref) : List (Item α) → Mem α → Outcome (Bytes × Mem α)
  | [], m => .ok ([], m)
  | x :: xs, m => do
    let (line, m) ← assign line x m
    let t ← plot sh x line m
    let (rest, m) ← items sh line xs m
    .ok (t ++ rest, m)

/-- `"set term post eps"` -/
def term : Bytes := [115, 101, 116, 32, 116, 101, 114, 109, 32, 112, 111, 115, 116, 32, 101, 112, 115]

/-- `"set output "` -/
def output : Bytes := [115, 101, 116, 32, 111, 117, 116, 112, 117, 116, 32]

/-- `gnuplot::write` (lube/gnuplot.cpp:69-131): what is written to gnuplot, and the memory afterwards. -/
def write (sh : α → Bytes) (file : Val) (xs : List (Item α)) (m : Mem α) : Outcome (Bytes × Mem α) := do
  let h := if file.defined then puts term ++ puts (output ++ Json.format 0 file) else []
  let (t, m) ← items sh none xs m
  .ok (h ++ t, m)

/-- `gnuplot::read` (lube/gnuplot.cpp:62-66). -/
def read : Outcome Val := .thrown (.error "gnuplot::read() Read not defined")

end Libube.Gnuplot

import Verif.Model.View
import Verif.Model.CString

/-! # Plotting with Qwt (lube/qwt.cpp)

Qt and Qwt are replaced by their documented behaviour: a plot shows the curves attached to it and the titles of its axes, and the central widget of a window that is
replaced is deleted.  Colours, the grid and the size of the window (lube/qwt.cpp:50, 57, 74-80) are left out. -/

namespace Libube.Qwt

open View CString

/-- What is given to `curve` as numbers: nil, a single `double`, an array of them or a view of one, or anything else, of which the size is given. -/
inductive Arg (α : Type) where
  | nil
  | num (x : α)
  | arr (a : Arr α)
  | other (size : Nat)

/-- What is given as a text: a string, something that is not an array, or another array. -/
inductive Text where
  | str (s : Bytes)
  | none
  | other

/-- A curve: its points and its title. -/
structure Curve (α : Type) where
  points : List (α × α)
  title : Bytes

/-- A `QwtPlot`: the curves attached to it and the titles of its axes. -/
structure Plot (α : Type) where
  curves : List (Curve α)
  x : Bytes
  y : Bytes

/-- `mPlot` (lube/qwt.cpp:37), which is also the central widget; none before it has been set, as the constructor (47-51) does not. -/
abbrev State (α : Type) := Option (Plot α)

/-- The interface (lube/qwt.h:18-25); `exec` runs the application and is left out. -/
inductive Call (α : Type) where
  | plot
  | curve (x y : Arg α) (title : Text)
  | axes (x y : Text)

/-- `var::str()` (lube/var.cpp:194-200) as it is read by `QString`. -/
def str : Text → Outcome Bytes
  | .str s => .ok (cstr s)
  | .none => .ok []
  | .other => .ub .typePun

/-- `var::size()` (lube/var.cpp:608-615). -/
def size : Arg α → Outcome Int
  | .nil => .ok 0
  | .num _ => .ok 1
  | .arr a => View.size a
  | .other n => .ok n

/-- Reading `n` elements from place `p` of an array. -/
def read (d : List α) (p : Int) : Nat → Outcome (List α)
  | 0 => .ok []
  | n + 1 => do
    let x ← load d p
    let xs ← read d (p + 1) n
    .ok (x :: xs)

/-- What `setSamples` reads from `ptr<double>()` (lube/qwt.cpp:58-60, lube/var.cpp:165-175). -/
def samples (n : Nat) : Arg α → Outcome (List α)
  | .nil => if n = 0 then .ok [] else .ub .typePun
  | .num x => if n = 0 then .ok [] else if n = 1 then .ok [x] else .ub .outOfBounds
  | .arr a => do
    let p ← locate a 0
    read a.data p n
  | .other _ => if n = 0 then .ok [] else .ub .typePun

/-- `MQwt::plot` (lube/qwt.cpp:70-83). -/
def plot : State α := some ⟨[], [], []⟩

/-- `MQwt::curve` (lube/qwt.cpp:53-62). -/
def curve (x y : Arg α) (title : Text) (s : State α) : Outcome (State α) := do
  let t ← str title
  match s with
  | none => .ub .uninit
  | some p => do
    let nx ← size x
    let ny ← size y
    let n := (min nx ny).toNat
    let xs ← samples n x
    let ys ← samples n y
    .ok (some { p with curves := p.curves ++ [⟨xs.zip ys, t⟩] })

/-- `MQwt::axes` (lube/qwt.cpp:64-68). -/
def axes (x y : Text) (s : State α) : Outcome (State α) :=
  match s with
  | none => .ub .uninit
  | some p => do
    let x ← str x
    let y ← str y
    .ok (some { p with x := x, y := y })

/-- One call (lube/qwt.cpp:53-83). -/
def call : Call α → State α → Outcome (State α)
  | .plot, _ => .ok plot
  | .curve x y t, s => curve x y t s
  | .axes x y, s => axes x y s

/-- Calls one after the other. -/
def run : List (Call α) → State α → Outcome (State α)
  | [], s => .ok s
  | c :: cs, s => do
    let s ← call c s
    run cs s

end Libube.Qwt

import Verif.Model.Cast
import Verif.Model.View
import Verif.Model.AllocSize
import Verif.Model.ViewElem

/-! # Constructors of arrays (lube/var.cpp) -/

namespace Libube.Ctor

open View CString

/-- The loops of the constructors with an initialiser list and with an array of strings (lube/var.cpp:464-465, 424-425, 439-440): `r` so far. -/
def pushAll (r : Val) : List Val → Outcome Val
  | [] => .ok r
  | x :: xs => do
    let r ← push r x
    pushAll r xs

/-- `var(std::initializer_list<var>)` (lube/var.cpp:462-466). -/
def ofList (xs : List Val) : Outcome Val := pushAll .nil xs

/-- `var(int, const char* const*)` (lube/var.cpp:435-441): `data` are the strings behind the pointers. -/
def ofStrings (n : Int) (data : List Bytes) : Outcome Val :=
  if n < 0 then .abort
  else if n > data.length then .ub .outOfBounds
  else pushAll .nil ((data.take n.toNat).map .chars)

/-- `var(const char* const*)` (lube/var.cpp:420-426): `data` are the strings up to the null pointer; without one it is undefined. -/
def ofArgv (data : List Bytes) (terminated : Bool) : Outcome Val :=
  if terminated then pushAll .nil (data.map .chars) else .ub .outOfBounds

/-- Elements of an array that is being made; `none` has not been set. -/
abbrev Cells := List (Option Val)

/-- What a constructor yields: a number, or an array of the given type. -/
inductive Made where
  | number (x : Val)
  | array (kind : Kind) (cells : Cells)

/-- `Heap::resize` (lube/heap.cpp:225-271) of an array: new elements are not set.  Elements between the size and the capacity, which may hold old
    values, count as not set. -/
def resizeCells (kind : Kind) (cells : Cells) (n : Int) : Outcome Cells := do
  let _ ← Alloc.allocSize (if kind = .char then n + 1 else n)
  .ok (cells.take n.toNat ++ List.replicate (n.toNat - cells.length) none)

/-- `a.at(i) = x` for `x` of the type of the elements (lube/var.cpp:808-819, 280-309): the cast is none (650-657). -/
def setCell (cells : Cells) (i : Int) (x : Val) : Outcome Cells :=
  if i < 0 then .ub .outOfBounds
  else if i.toNat < cells.length then .ok (cells.set i.toNat (some x)) else .ub .outOfBounds

/-- `var::resize` (lube/var.cpp:915-946) of a number: an array only if it is to have more than one element. -/
def resizeNumber (kind : Kind) (x : Val) (n : Int) : Outcome Made :=
  if n < 0 then .abort
  else if n > 1 then do
    let cells ← resizeCells kind [] n
    let cells ← setCell cells 0 x
    .ok (.array kind cells)
  else .ok (.number x)

/-- The loop of `var(int, var)` (lube/var.cpp:457-458), from `i` on for `m` more. -/
def fillFrom (x : Val) (i : Nat) : Nat → Made → Outcome Made
  | 0, r => .ok r
  | m + 1, r =>
    match r with
    | .number _ => if i = 0 then fillFrom x (i + 1) m (.number x) else .thrown (.error "var::at(): Index out of bounds")
    | .array k cells => do
      let cells ← setCell cells i x
      fillFrom x (i + 1) m (.array k cells)

/-- `var(int, var)` (lube/var.cpp:451-459). -/
def ofSize (n : Int) (x : Val) : Outcome Made :=
  match ViewElem.scalarKind x.type with
  | none => .thrown (.error "initialise ctor: cannot init from array")
  | some k => do
    let r ← resizeNumber k x n
    fillFrom x 1 (n - 1).toNat r

/-- The product of the dimensions (lube/var.cpp:1385-1387, 1401-1403). -/
def product (s : Int) : List Int → Outcome Int
  | [] => .ok s
  | d :: ds => do
    let s ← cint (s * d)
    product s ds

/-- What `v.array()` makes of `iType` (lube/var.cpp:1388-1389, 1404-1405, 901-912): an array is used as it is, nil stands for `0.0f`. -/
def asArray (x : Val) : Kind × Cells :=
  match ViewElem.heapKind x with
  | some k => (k, x.elems.map some)
  | none => match ViewElem.scalarKind x.type with
    | some k => (k, [some x])
    | none => (.float, [some (.float 0)])

/-- `libube::view(shape, type)` (lube/var.cpp:1383-1392, 1399-1408).  If `iType` is an array, its heap is the one that is resized, so it is the array
    of the caller, who sees the elements of the result. -/
def newView (sh : List Int) (x : Val) : Outcome (Kind × Arr (Option Val)) := do
  let s ← product 1 sh
  let (k, cells) := asArray x
  if s < 0 then .abort
  else do
    let cells ← resizeCells k cells s
    let v ← View.view ⟨cells, none⟩ sh 0
    .ok (k, v)

/-- What `at(i) = iType` stores (lube/var.cpp:280-309) in `var(shape, type)`: a number itself, of an array of cdouble the first element
    (53-60), which is not changed.  Other arrays are not modelled. -/
inductive Init where
  | number (x : Val) (k : Kind) (h : ViewElem.scalarKind x.type = some k)
  | cdouble (p : BitVec 64 × BitVec 64) (ps : List (BitVec 64 × BitVec 64))

/-- The argument as a var. -/
def Init.arg : Init → Val
  | .number x _ _ => x
  | .cdouble p ps => .cdoubles (p :: ps)

/-- What is stored. -/
def Init.elem : Init → Val
  | .number x _ _ => x
  | .cdouble p _ => .cdoubles [p]

/-- The loop of `var(shape, type)` (lube/var.cpp:472-473), from `i` on for `m` more. -/
def fillView (x : Val) (i : Nat) : Nat → Arr (Option Val) → Outcome (Arr (Option Val))
  | 0, v => .ok v
  | m + 1, v => do
    let p ← locate v i
    let cells ← setCell v.data p x
    fillView x (i + 1) m { v with data := cells }

/-- `var(std::initializer_list<int>, var)` (lube/var.cpp:469-474). -/
def ofShape (sh : List Int) (x : Init) : Outcome (Kind × Arr (Option Val)) := do
  let (k, v) ← newView sh x.arg
  let s ← View.size v
  let v ← fillView x.elem 0 s.toNat v
  .ok (k, v)

end Libube.Ctor

import Verif.Model.Value

/-! # Views: strides, indexing, sub-views (lube/view.cpp, lube/var.cpp)

The metadata of a view is the `int` array `[offset, shape 0, stride 0, shape 1, stride 1, ...]`
(lube/heap.h:186-193).  `int` is modelled by `Int` with overflow as undefined behaviour. -/

namespace Libube.View

/-- The result of an `int` operation: undefined if it does not fit in 32 bits (C++17 [expr.pre];
    no code in /repo corresponds to this definition). -/
def cint (x : Int) : Outcome Int :=
  if -2 ^ 31 ≤ x ∧ x < 2 ^ 31 then .ok x else .ub .overflow

/-- Reading `mData.ip[i]` (lube/heap.h:158). -/
def ipGet (ip : List Int) (i : Nat) : Outcome Int :=
  match ip[i]? with
  | some x => .ok x
  | none => .ub .outOfBounds

/-- Writing `mData.ip[i] = x` (lube/heap.h:158). -/
def ipSet (ip : List Int) (i : Nat) (x : Int) : Outcome (List Int) :=
  if i < ip.length then .ok (ip.set i x) else .ub .outOfBounds

/-- The loop of `View::setStrides` (lube/view.cpp:57-61) for `i = n-1` down to 0, with `p` so
    far.  Returns the metadata and the final `p`. -/
def strideLoop (ip : List Int) (p : Int) : Nat → Outcome (List Int × Int)
  | 0 => .ok (ip, p)
  | i + 1 => do
    let ip ← ipSet ip (i * 2 + 2) p
    let d ← ipGet ip (i * 2 + 1)
    let p ← cint (p * d)
    strideLoop ip p i

/-- `View::setStrides` (lube/view.cpp:51-67); `heapSize` is the size of the underlying array. -/
def setStrides (heapSize : Nat) (ip : List Int) (dim : Nat) : Outcome (List Int) :=
  if dim < 1 then .thrown (.error "View::setStrides(): view must have dim > 0")
  else do
    let (ip, p) ← strideLoop ip 1 dim
    let off ← ipGet ip 0
    let q ← cint (p + off)
    if q > heapSize then .thrown (.error "View::setStrides(): Array too small for view")
    else .ok ip

/-- The view constructors (lube/view.cpp:70-90 and 93-110): `base` is the offset of the view the
    new one is made from, 0 for a plain array (45).  The shape has been read from the initialiser
    list or the `int` array already; the loops of 80-86 and 102-106 are the `flatMap`. -/
def mkView (heapSize : Nat) (base : Int) (shape : List Int) (off : Int) : Outcome (List Int) := do
  let o ← cint (base + off)
  setStrides heapSize (o :: shape.flatMap (fun d => [d, 0])) shape.length

/-- An array with the elements of its heap, and the metadata if it is a view
    (lube/heap.h:87-183, 194-240). -/
structure Arr (α : Type) where
  data : List α
  ip : Option (List Int)
  deriving DecidableEq

/-- `var::dim()` (lube/var.cpp:1433-1439), `View::dim()` (lube/heap.h:220). -/
def dim (a : Arr α) : Nat :=
  match a.ip with
  | none => 1
  | some ip => (ip.length - 1) / 2

/-- `var::offset()` (lube/var.cpp:1442-1447), `View::offset()` (lube/heap.h:221). -/
def offset (a : Arr α) : Outcome Int :=
  match a.ip with
  | none => .ok 0
  | some ip => ipGet ip 0

/-- `View::shape(int)` (lube/view.cpp:129-135). -/
def viewShape (ip : List Int) (d : Int) : Outcome Int :=
  let index := d * 2 + 1
  if index < 0 ∨ index ≥ ip.length then
    .thrown (.rangeError "View::shape(): dimension out of bounds")
  else ipGet ip index.toNat

/-- `View::stride(int)` (lube/view.cpp:138-144). -/
def viewStride (ip : List Int) (d : Int) : Outcome Int :=
  let index := d * 2 + 2
  if index < 0 ∨ index ≥ ip.length then
    .thrown (.rangeError "View::stride(): dimension out of bounds")
  else ipGet ip index.toNat

/-- `var::size()` of an array (lube/var.cpp:608-615): `Heap::size()` (lube/heap.h:122) or
    `View::size()` (lube/heap.h:218). -/
def size (a : Arr α) : Outcome Int :=
  match a.ip with
  | none => .ok a.data.length
  | some ip => do
    let st ← viewStride ip 0
    let sh ← viewShape ip 0
    cint (st * sh)

/-- `var::shape(int)` (lube/var.cpp:1475-1484). -/
def shape (a : Arr α) (d : Int) : Outcome Int :=
  let d := if d < 0 then dim a + d else d
  match a.ip with
  | some ip => viewShape ip d
  | none => if d > 0 then .thrown (.error "var::shape(): dimension too large") else size a

/-- `var::stride(int)` (lube/var.cpp:1487-1494). -/
def stride (a : Arr α) (d : Int) : Outcome Int :=
  match a.ip with
  | some ip => viewStride ip d
  | none => if d > 0 then .thrown (.error "var::stride(): dimension too large") else .ok 1

/-- `var::bounds` (lube/var.cpp:1497-1507); the text of the message is not modelled. -/
def bounds (a : Arr α) (d i : Int) : Outcome Unit := do
  let s ← shape a d
  if i < 0 ∨ i ≥ s then .thrown (.error "var::bounds(): index") else .ok ()

/-- The loop of `var::operator()` (lube/var.cpp:768-773) for dimensions `i .. i+n-1`; `args` are
    the arguments not yet fetched.  `va_arg` beyond the arguments passed is undefined. -/
def indexLoop (a : Arr α) (i : Int) (args : List Int) (p : Int) : Nat → Outcome Int
  | 0 => .ok p
  | n + 1 =>
    match args with
    | [] => .ub .uninit
    | d :: args => do
      bounds a i d
      let st ← stride a i
      let t ← cint (d * st)
      let p ← cint (p + t)
      indexLoop a (i + 1) args p n

/-- `var::operator()` up to the call of `at(p)` (lube/var.cpp:761-774): the flat index.  The
    product with the first stride is formed before the bounds check (766-767). -/
def index (a : Arr α) (first : Int) (rest : List Int) : Outcome Int := do
  let st ← stride a 0
  let p ← cint (first * st)
  bounds a 0 first
  indexLoop a 1 rest p (dim a - 1)

/-- Where in the heap the element with flat index `p` lies: `Heap::ptrT` (lube/heap.h:96-98),
    `View::ptrT` (lube/heap.h:204-206). -/
def locate (a : Arr α) (p : Int) : Outcome Int := do
  let o ← offset a
  cint (p + o)

/-- Reading the element of a heap at a location: outside of the elements it is undefined
    behaviour (whether or not there is spare capacity behind them). -/
def load (data : List α) (i : Int) : Outcome α :=
  if i < 0 then .ub .outOfBounds
  else match data[i.toNat]? with
    | some x => .ok x
    | none => .ub .outOfBounds

/-- Reading `a(first, rest...)`: `var::operator()` and dereferencing the result
    (lube/var.cpp:761-776, 808-819, 34-42). -/
def get (a : Arr α) (first : Int) (rest : List Int) : Outcome α := do
  let p ← index a first rest
  let i ← locate a p
  load a.data i

/-- `a(i1, ..., in)` with the arguments as a list (lube/var.cpp:761-776); at least one is passed. -/
def getAll (a : Arr α) : List Int → Outcome α
  | [] => .ub .uninit
  | i :: is => get a i is

/-- The offset a view of `a` starts from (lube/view.cpp:40, 46). -/
def baseOffset (a : Arr α) : Outcome Int := offset a

/-- `var::view(shape, offset)` of an array (lube/var.cpp:1355-1376): a view of the same heap. -/
def view (a : Arr α) (sh : List Int) (off : Int) : Outcome (Arr α) := do
  let b ← baseOffset a
  let ip ← mkView a.data.length b sh off
  .ok ⟨a.data, some ip⟩

/-- The loop of `var::shape()` (lube/var.cpp:1464-1467) for dimensions `i .. i+n-1`. -/
def shapeLoop (a : Arr α) (i : Int) : Nat → Outcome (List Int)
  | 0 => .ok []
  | n + 1 => do
    let s ← shape a i
    let r ← shapeLoop a (i + 1) n
    .ok (s :: r)

/-- `var::subview` (lube/var.cpp:1421-1430); shifting the shape `dim - d` times is `drop`. -/
def subview (a : Arr α) (d : Int) (off : Int) : Outcome (Arr α) :=
  if d < 1 then .thrown (.error "var::subview(): subview must have dim > 0")
  else do
    let is ← shapeLoop a 0 (dim a)
    view a (is.drop (dim a - d).toNat) off

/-- `var::offset(int)` (lube/var.cpp:1450-1456), `View::offset(int)` (lube/view.cpp:120-126). -/
def setOffset (a : Arr α) (off : Int) : Outcome (Arr α) :=
  match a.ip with
  | none => .thrown (.error "var::offset(): not a view")
  | some ip => do
    let s ← size a
    let e ← cint (off + s)
    if e > a.data.length then .thrown (.error "View::offset(): offset too large")
    else do
      let ip ← ipSet ip 0 off
      .ok ⟨a.data, some ip⟩

/-- `var::advance` (lube/var.h:193). -/
def advance (a : Arr α) (k : Int) : Outcome (Arr α) := do
  let o ← offset a
  let o ← cint (o + k)
  setOffset a o

/-- What `Heap::at(0 .. mSize-1)` yields, called on either kind of heap (lube/heap.cpp:394-435):
    the elements of an array, but the metadata of a view, which does not override `at`. -/
def heapAt (a : Arr Val) : List Val :=
  match a.ip with
  | none => a.data
  | some ip => ip.map (fun i => .int (BitVec.ofInt 32 i))

/-- `var::operator!=` (lube/var.cpp:508-538) between arrays that may be views: sizes first, then
    `Heap::neq` (lube/heap.cpp:448-454), which `View` does not override. -/
def neqArr (n : Nat) (a b : Arr Val) : Outcome Bool := do
  let s ← size a
  let t ← size b
  if s ≠ t then .ok true else neqLoop (neq n) (heapAt a) (heapAt b)

end Libube.View

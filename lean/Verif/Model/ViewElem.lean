import Verif.Model.View
import Verif.Model.Kind

/-! # References to elements of arrays and of views (lube/heap.cpp, lube/heap.h, lube/var.cpp)

`a[i]`, `a.at(i)` and `v(i)` yield a reference: a var with the pointer to the array or view and an index.  What is asked of the
reference goes to the virtual functions of `Heap`.  `View` overrides some of them only. -/

namespace Libube.ViewElem

open View

/-- The number of a type (lube/var.h:31-42). -/
def code : Kind → Nat
  | .char => 1
  | .int => 2
  | .long => 3
  | .float => 4
  | .double => 5
  | .cfloat => 6
  | .cdouble => 7
  | .var => 8
  | .pair => 9

/-- The type of the elements of an array; `none` if the value has no heap (lube/heap.h:121). -/
def heapKind : Val → Option Kind
  | .chars _ => some .char
  | .ints _ => some .int
  | .longs _ => some .long
  | .floats _ => some .float
  | .doubles _ => some .double
  | .cfloats _ => some .cfloat
  | .cdoubles _ => some .cdouble
  | .arr _ => some .var
  | .map _ => some .pair
  | _ => none

/-- A reference (lube/var.cpp:1254-1261): the array or view with elements of type `kind`, of a map the values, of an array of cdouble arrays
    of one, and the index. -/
structure Elem where
  kind : Kind
  arr : Arr Val
  index : Int

/-- `Heap::deref` and reading what it points to (lube/heap.cpp:108-118). -/
def heapDeref (k : Kind) (data : List Val) (i : Int) : Outcome (Option Val) :=
  match k with
  | .var | .pair => do
    let x ← load data i
    .ok (some x)
  | _ => .ok none

/-- `deref` of the array or view: a view is an array of `int` (lube/view.cpp:29, 44) and does not override it. -/
def deref (e : Elem) : Outcome (Option Val) :=
  match e.arr.ip with
  | none => heapDeref e.kind e.arr.data e.index
  | some _ => .ok none

/-- `heap->deref(i)` for the array behind, with the index in it, as used by `derefSize`, `derefType` and `derefAType`
    (lube/heap.cpp:128-153, lube/heap.h:227-235). -/
def baseDeref (e : Elem) : Outcome (Option Val) := do
  let p ← locate e.arr e.index
  heapDeref e.kind e.arr.data p

/-- `var::defined()` (lube/var.cpp:600-605) with `Heap::defined` (lube/heap.cpp:121-125). -/
def defined (e : Elem) : Outcome Bool := do
  match ← deref e with
  | some x => .ok x.defined
  | none => .ok true

/-- `var::size()` (lube/var.cpp:608-615) with `derefSize` (lube/heap.cpp:128-132, lube/heap.h:227-229). -/
def size (e : Elem) : Outcome Nat := do
  match ← baseDeref e with
  | some x => .ok x.size
  | none => .ok 1

/-- `var::type()` (lube/var.cpp:622-627) with `derefType` (lube/heap.cpp:139-143, lube/heap.h:230-232). -/
def type (e : Elem) : Outcome Nat := do
  match ← baseDeref e with
  | some x => .ok x.type
  | none => .ok (code e.kind)

/-- `var::atype()` of a value (lube/var.cpp:634-643). -/
def atypeOf (x : Val) : Outcome Nat :=
  if !x.defined then .thrown (.error "var::atype(): Undefined")
  else match heapKind x with
    | some k => .ok (code k)
    | none => .ok x.type

/-- `var::atype()` (lube/var.cpp:634-643) with `derefAType` (lube/heap.cpp:149-153, lube/heap.h:233-235). -/
def atype (e : Elem) : Outcome Nat := do
  if !(← defined e) then .thrown (.error "var::atype(): Undefined")
  else match ← baseDeref e with
    | some x => atypeOf x
    | none => .ok (code e.kind)

/-- `var::heap()` (lube/var.cpp:1241-1246) with `Heap::derefHeap` (lube/heap.cpp:156-160): the array the pointer leads to, `none` if it is
    null. -/
def heap (e : Elem) : Outcome (Option Val) := do
  match ← deref e with
  | some x => .ok (if x.hasHeap then some x else none)
  | none => .ok none

/-- `get<T>()` for `T` of type `k` (lube/var.cpp:34-60).  A wrong member of the union or an element of another type is undefined. -/
def get (k : Kind) (e : Elem) : Outcome Val := do
  match ← deref e with
  | some x => if x.type = code k then .ok x else .ub .typePun
  | none =>
    if k = e.kind then do
      let p ← locate e.arr e.index
      load e.arr.data p
    else .ub .typePun

/-- The scalar types and their numbers (lube/var.h:31-42). -/
def scalarKind : Nat → Option Kind
  | 1 => some .char
  | 2 => some .int
  | 3 => some .long
  | 4 => some .float
  | 5 => some .double
  | 6 => some .cfloat
  | _ => none

/-- `e != w` (lube/var.cpp:508-538) with `Heap::neq` (lube/heap.cpp:448-454); `w` is no reference, so its type is never
    `TYPE_CDOUBLE`. -/
def neq (n : Nat) (e : Elem) (w : Val) : Outcome Bool := do
  let t ← type e
  if t ≠ w.type then .ok true
  else do
    let s ← size e
    if s ≠ w.size then .ok true
    else if t = 0 then do
      match ← heap e with
      | none => .ub .nullDeref
      | some h => neqLoop (Libube.neq n) h.elems w.elems
    else match scalarKind t with
      | none => .thrown (.error "operator !=(): Unknown type")
      | some k => do
        let x ← get k e
        Libube.neq (n + 1) x w

/-- `e == w` (lube/var.h:101). -/
def eq (n : Nat) (e : Elem) (w : Val) : Outcome Bool := do
  .ok (!(← neq n e w))

/-- `w < e` (lube/var.cpp:546-575) with `Heap::lt` (lube/heap.cpp:457-465), as used in `binary`. -/
def ltElem (n : Nat) (w : Val) (e : Elem) : Outcome Bool := do
  let t ← type e
  if w.type ≠ t then .ok (decide (w.type < t))
  else if t = 0 then
    if !w.hasHeap then .ub .nullDeref
    else do
      match ← heap e with
      | none => .ub .nullDeref
      | some h => lt (n + 1) w h
  else match scalarKind t with
    | none => .thrown (.error "operator <(): Unknown type")
    | some k => do
      let x ← get k e
      lt (n + 1) w x

/-- `e[j]` (lube/var.cpp:711-721) with `Heap::derefInt` (lube/heap.cpp:163-169); `f x j` is what `x[j]` yields for a var. -/
def subscript (f : Val → Int → Outcome Val) (e : Elem) (j : Int) : Outcome Val :=
  if j < 0 then .thrown (.error "operator [int]: Negative index")
  else do
    match ← deref e with
    | none => .thrown (.error "Heap::derefInt: Not a reference")
    | some x => f x j

/-- `View::copyable` (lube/view.cpp:153-167) for the heap of a value, which has one dimension. -/
def copyable (kind : Kind) (a : Arr Val) (x : Val) : Outcome Bool :=
  match heapKind x with
  | none => .ok false
  | some k =>
    if kind ≠ k then .ok false
    else if dim a ≠ 1 then .ok false
    else do
      let s ← View.size a
      .ok (decide (s = x.size))

/-- What `y = e` stores in a new var `y`, also what `dereference()` leaves in a copy of the reference (lube/var.cpp:319-338, 1271-1323).
    A copy of a reference to a var is first made the array or view itself, so that a view may be assigned to (1281-1282, 319-325):
    `Set` (lube/math.cpp:213-272) throws for an array of vars (lube/func.cpp:279-298), but for a single one comes back to here without
    end (lube/func.cpp:264-273).  Only for an index within the view: with `at()` of others the element 0 would decide. -/
def value (e : Elem) : Outcome Val := do
  let p ← locate e.arr e.index
  let x ← load e.arr.data p
  match e.arr.ip, e.kind with
  | some _, .var | some _, .pair => do
    if ← copyable e.kind e.arr x then
      if x.size = 1 then .diverge else .thrown (.error "Set::vector: Unknown type")
    else .ok x
  | _, _ => .ok x

/-- Reading `e.at(j)` (lube/var.cpp:808-819). -/
def at' (e : Elem) (j : Int) : Outcome Val := do
  let x ← value e
  if !x.defined then .thrown (.error "var::at(): uninitialised")
  else if x.type = 0 then load x.elems j
  else if j = 0 then .ok x
  else .thrown (.error "var::at(): Index out of bounds")

/-- The loop of `var::index` (lube/var.cpp:1209-1211) from element `i`, `m` to go. -/
def indexLoop (n : Nat) (kind : Kind) (a : Arr Val) (k : Val) (i : Nat) : Nat → Outcome Int
  | 0 => .ok (-1)
  | m + 1 => do
    if ← eq n ⟨kind, a, i⟩ k then .ok i else indexLoop n kind a k (i + 1) m

/-- `var::index` (lube/var.cpp:1194-1214) on an array or view of anything but pairs. -/
def index (n : Nat) (kind : Kind) (a : Arr Val) (k : Val) : Outcome Int := do
  let s ← View.size a
  indexLoop n kind a k 0 s.toNat

/-- `r.binary(e)` for an array of vars (lube/var.cpp:1329-1348). -/
def binary (n : Nat) (r : List Val) (e : Elem) : Outcome Nat :=
  if r.length = 0 then .ok 0
  else do
    let (i, _) ← binaryLoop (fun pos =>
      match r[pos]? with
      | some x => ltElem n x e
      | none => .ub .outOfBounds) 0 r.length
    .ok i

/-- The loop of `var::sort` (lube/var.cpp:1185-1189) from element `i`, `m` to go. -/
def sortLoop (n : Nat) (kind : Kind) (a : Arr Val) (r : List Val) (i : Nat) : Nat → Outcome (List Val)
  | 0 => .ok r
  | m + 1 => do
    let p ← binary n r ⟨kind, a, i⟩
    let x ← value ⟨kind, a, i⟩
    let r ← insertVar r x p
    sortLoop n kind a r (i + 1) m

/-- `var::sort` (lube/var.cpp:1181-1191) on an array or view. -/
def sort (n : Nat) (kind : Kind) (a : Arr Val) : Outcome Val := do
  let s ← View.size a
  let r ← sortLoop n kind a [] 0 s.toNat
  .ok (.arr r)

end Libube.ViewElem

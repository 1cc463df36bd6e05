import Verif.Model.View
import Verif.Model.AllocSize

/-! # Array operations on views (lube/var.cpp, lube/heap.cpp)

`View` does not override `resize`, `shift` and `unshift` of `Heap`: they act on the `int` array that describes the view.  Here that array is a block of memory that may
be larger than it, not yet written in part. -/

namespace Libube.View

/-- A view: the elements of the array behind it, the memory of the description, `none` where not yet written, and `mSize`
    (lube/heap.h:168-177, 194-240). -/
structure W (α : Type) where
  data : List α
  cells : List (Option Int)
  n : Int

/-- The view with description `ip`, with room for `k` more entries (lube/heap.cpp:236-241). -/
def W.of (data : List α) (ip : List Int) (k : Nat) : W α := ⟨data, ip.map some ++ List.replicate k none, ip.length⟩

/-- `mData.ip[i]` (lube/heap.h:158). -/
def W.cell (w : W α) (i : Nat) : Outcome Int :=
  match w.cells[i]? with
  | some (some x) => .ok x
  | some none => .ub .uninit
  | none => .ub .outOfBounds

/-- `View::shape(int)` (lube/view.cpp:129-135). -/
def W.shape (w : W α) (d : Int) : Outcome Int :=
  let index := d * 2 + 1
  if index < 0 ∨ index ≥ w.n then .thrown (.rangeError "View::shape(): dimension out of bounds")
  else w.cell index.toNat

/-- `View::stride(int)` (lube/view.cpp:138-144). -/
def W.stride (w : W α) (d : Int) : Outcome Int :=
  let index := d * 2 + 2
  if index < 0 ∨ index ≥ w.n then .thrown (.rangeError "View::stride(): dimension out of bounds")
  else w.cell index.toNat

/-- `View::size()` (lube/heap.h:218). -/
def W.size (w : W α) : Outcome Int := do
  let st ← w.stride 0
  let sh ← w.shape 0
  cint (st * sh)

/-- `View::dim()` (lube/heap.h:220); division of `int` rounds towards 0. -/
def W.dim (w : W α) : Int := (w.n - 1).tdiv 2

/-- `var::resize` of a view (lube/var.cpp:915-918, 941-946) with `Heap::resize` (lube/heap.cpp:225-271). -/
def W.resize (w : W α) (n : Int) : Outcome (W α) :=
  if n < 0 then .abort
  else do
    let c ← Alloc.allocSize n
    .ok { w with cells := w.cells ++ List.replicate (c.toNat - w.cells.length) none, n := n }

/-- Reading `at(i)` of a view (lube/var.cpp:808-819, 1254-1261 with lube/heap.h:204-206). -/
def W.at (w : W α) (i : Int) : Outcome α := do
  let o ← w.cell 0
  let p ← cint (i + o)
  load w.data p

/-- Writing an element of an array (lube/var.cpp:286-308 with lube/heap.h:96-98): outside of the elements it is undefined behaviour. -/
def store (data : List α) (i : Int) (x : α) : Outcome (List α) :=
  if i < 0 then .ub .outOfBounds
  else if i.toNat < data.length then .ok (data.set i.toNat x) else .ub .outOfBounds

/-- `var::push` of an element of the right type on a view (lube/var.cpp:1066-1089) with `operator[]` (711-721). -/
def W.push (w : W α) (x : α) : Outcome (W α) := do
  let s ← w.size
  if s < 0 then .thrown (.error "operator [int]: Negative index")
  else do
    let m ← cint (s + 1)
    let w ← w.resize m
    let o ← w.cell 0
    let p ← cint (s + o)
    let data ← store w.data p x
    .ok { w with data := data }

/-- `var::pop` of a view (lube/var.cpp:1092-1097): the element, read after the call, and the view. -/
def W.pop (w : W α) : Outcome (α × W α) := do
  let s ← w.size
  let m ← cint (s - 1)
  let w ← w.resize m
  let x ← w.at m
  .ok (x, w)

/-- `var::shift` of a view (lube/var.cpp:1157-1163) with `Heap::shift` (lube/heap.cpp:472-489, 525-528): the description is an array of `int`. -/
def W.shift (w : W α) : Outcome (Int × W α) := do
  let r ← w.cell 0
  let cells := (w.cells.drop 1).take (w.n - 1).toNat ++ w.cells.drop (w.n - 1).toNat
  let w ← ({ w with cells := cells } : W α).resize (w.n - 1)
  .ok (r, w)

/-- The loop of `remove` on a view (lube/var.cpp:1150-1151), for positions `q`, …; the size does not change meanwhile.  Elements
    are taken to be of a type whose conversion to itself changes nothing, which is all but `cdouble`. -/
def W.moveDown (w : W α) (q : Int) : Nat → Outcome (W α)
  | 0 => .ok w
  | n + 1 => do
    let x ← w.at q
    let o ← w.cell 0
    let p ← cint (q - 1 + o)
    let data ← store w.data p x
    ({ w with data := data } : W α).moveDown (q + 1) n

/-- `var::remove` of a view of numbers (lube/var.cpp:1143-1154): what is returned, and the view. -/
def W.remove (w : W α) (i : Int) : Outcome (α × W α) :=
  if i < 0 then .abort
  else do
    let s ← w.size
    let m ← cint (s - 1)
    if i > m then .thrown (.rangeError "remove(): index too large")
    else do
      let r ← w.at i
      let w ← w.moveDown (i + 1) (s - (i + 1)).toNat
      let w ← w.resize m
      .ok (r, w)

/-- The loop of `insert` on a view (lube/var.cpp:1133-1134) for one new element, for positions `q` down to `q - n + 1`. -/
def W.moveUp (w : W α) (q : Int) : Nat → Outcome (W α)
  | 0 => .ok w
  | n + 1 => do
    let x ← w.at (q - 1)
    let o ← w.cell 0
    let p ← cint (q + o)
    let data ← store w.data p x
    ({ w with data := data } : W α).moveUp (q - 1) n

/-- `var::insert` of a number of the right type in a view of numbers (lube/var.cpp:1104-1107, 1129-1139), at a position that is
    not negative. -/
def W.insert (w : W α) (x : α) (p : Nat) : Outcome (W α) := do
  let s ← w.size
  if (p : Int) > s then .thrown (.rangeError "insert(): index too large")
  else do
    let m ← cint (s + 1)
    let w ← w.resize m
    let s ← w.size
    let w ← w.moveUp (s - 1) (s - 1 - p).toNat
    let o ← w.cell 0
    let q ← cint (p + o)
    let data ← store w.data q x
    .ok { w with data := data }

/-- `var::unshift` of an `int` on a view (lube/var.cpp:1166-1178) with `Heap::unshift` (lube/heap.cpp:535-546): the description is an array
    of `int`.  A number of another type is misread by `get<int>()`; this is left out. -/
def W.unshift (w : W α) (x : Int) : Outcome (W α) := do
  let m ← cint (w.n + 1)
  let w ← w.resize m
  .ok { w with cells := some x :: (w.cells.take (w.n - 1).toNat ++ w.cells.drop w.n.toNat) }

/-- `var::presize` of a view (lube/var.cpp:1227-1234). -/
def W.presize (w : W α) (m : Int) : Outcome (W α) := do
  let s ← w.size
  let w ← w.resize m
  w.resize s

end Libube.View

import Verif.Model.Transpose

/-! # Array arithmetic: broadcasting of binary operations (lube/func.cpp, lube/math.cpp)

Operands are numeric arrays, possibly views, in a memory of numbered heaps, so that two operands
may share storage.  What `+`, `-`, ... do to two elements is a parameter.  BLAS calls are loops in
ascending order.  Arrays of characters, of vars and of pairs are not modelled; nor is integer
overflow in offsets, which stay below the size of an array. -/

namespace Libube.Arith

open View Transpose

/-- Numeric element types (lube/var.h:33-39). -/
inductive Num where
  | int | long | float | double | cfloat | cdouble
deriving DecidableEq, Repr

/-- The data blocks of all heaps (lube/heap.h:156-166). -/
abbrev Mem (α : Type) := List (List α)

/-- A var holding an array: its heap, the metadata if it is a view, and its element type
    (lube/var.h:202-216, lube/heap.h:194-240). -/
structure Ref where
  kind : Num
  heap : Nat
  ip : Option (List Int)
deriving DecidableEq, Repr

/-- A right operand: a number, already converted to the element type of the left operand; a
    reference to an element, by heap and location; or an array.  A reference into an array of
    another type acts as a number, as it is not written to (lube/var.h:202-228). -/
inductive Rhs (α : Type) where
  | num (x : α)
  | elem (heap : Nat) (loc : Int)
  | arr (b : Ref)

/-- The data block of a heap (lube/heap.h:156-166). -/
def heapOf (m : Mem α) (h : Nat) : Outcome (List α) :=
  match m[h]? with
  | some d => .ok d
  | none => .ub .badPointer

/-- The array a var refers to (lube/heap.h:194-240). -/
def arrOf (m : Mem α) (a : Ref) : Outcome (Arr α) := do
  let d ← heapOf m a.heap
  .ok ⟨d, a.ip⟩

/-- Reading through a pointer into a heap (lube/var.cpp:165-175, lube/heap.h:96-98). -/
def loadAt (m : Mem α) (h : Nat) (i : Int) : Outcome α := do
  let d ← heapOf m h
  load d i

/-- Writing through a pointer into a heap (lube/var.cpp:165-175, lube/heap.h:96-98). -/
def storeAt (m : Mem α) (h : Nat) (i : Int) (x : α) : Outcome (Mem α) := do
  let d ← heapOf m h
  let d ← store d i x
  .ok (m.set h d)

/-- The functors (lube/math.h:80-185); `pow` is in Model/Pow. -/
inductive Fn where
  | set | add | sub | mul | div
deriving DecidableEq, Repr

/-- The loop of `blas::copy`, `axpy`, `tbmv` and `sbmv` with no off-diagonals
    (called at lube/math.cpp:258-269, 373-399, 452-464, 597-629): for `j .. j+n-1`, element `j` at
    `po` becomes `f` of element `j` at `pa` and element `j` at `pb`. -/
def vecLoop (f : α → α → α) (ha : Nat) (pa : Int) (hb : Nat) (pb : Int) (ho : Nat) (po : Int) (j : Nat) :
    Nat → Mem α → Outcome (Mem α)
  | 0, m => .ok m
  | n + 1, m => do
    let y ← loadAt m hb (pb + j)
    let x ← loadAt m ha (pa + j)
    let m ← storeAt m ho (po + j) (f x y)
    vecLoop f ha pa hb pb ho po (j + 1) n m

/-- `vector()` of the functors without one (lube/func.cpp:188-219, with `mDim` 0): either there is no part of the
    second operand to take, or there is none to apply. -/
def vectorNone (dimA dimB : Nat) : Outcome (Mem α) :=
  if dimB = dimA then .thrown (.error "BinaryFunctor: not a vector operation")
  else .thrown (.error "var::subview(): subview must have dim > 0")

/-- `vector()` of each functor (lube/math.cpp:247-274, 362-404, 441-469, 581-634).  The second offset is always 0.  `set`, `add` and `sub`
    write to the first operand.  `is` (lube/var.cpp:783-799) holds iff the references are equal:
    the output is either the first operand itself or new storage.  Never called for `cdouble`, see `scalar`. -/
def vector (fn : Fn) (f : α → α → α) (a : Ref) (offA : Int) (b : Ref) (o : Ref) (offO : Int) (m : Mem α) :
    Outcome (Mem α) := do
  let A ← arrOf m a
  let B ← arrOf m b
  let O ← arrOf m o
  let pa ← offset A
  let pb ← offset B
  let po ← offset O
  let n ← size B
  match fn with
  | .set =>
    match a.kind with
    | .float | .double => vecLoop f a.heap (pa + offA) b.heap pb a.heap (pa + offA) 0 n.toNat m
    | _ => .thrown (.error "Set::vector: Unknown type")
  | .add =>
    if a ≠ o then .abort
    else match a.kind with
    | .float | .double | .cfloat => vecLoop f a.heap (pa + offA) b.heap pb a.heap (pa + offA) 0 n.toNat m
    | _ => .thrown (.error "Add::vector: Unknown type")
  | .sub =>
    if a ≠ o then .abort
    else match a.kind with
    | .float | .double => vecLoop f a.heap (pa + offA) b.heap pb a.heap (pa + offA) 0 n.toNat m
    | _ => .thrown (.error "Sub::vector: Unknown type")
  | .mul =>
    match a.kind with
    | .float | .double => vecLoop f a.heap (pa + offA) b.heap pb o.heap (po + offO) 0 n.toNat m
    | _ => .thrown (.error "Mul::vector: Unknown type")
  | .div => vectorNone (dim A) (dim B)

/-- The value of a right operand of size 1 converted to the element type
    (lube/var.cpp:129-149, 646-700).  Converting an array yields an array, whose heap pointer is
    then read as a number (lube/var.cpp:34-60). -/
def rhsNum (m : Mem α) : Rhs α → Outcome α
  | .num x => .ok x
  | .elem h i => loadAt m h i
  | .arr _ => .ub .typePun

/-- Case 1 of `ArithmeticFunctor::broadcast` (lube/func.cpp:264-273) with `scalar()` of the functor
    (lube/math.cpp:213-244, 328-359, 407-438, 752-783), for elements `i .. i+n-1`: the right
    operand is converted anew for each element. -/
def scalarLoop (f : α → α → α) (ha : Nat) (pa : Int) (r : Rhs α) (ho : Nat) (po : Int) (i : Nat) :
    Nat → Mem α → Outcome (Mem α)
  | 0, m => .ok m
  | n + 1, m => do
    let x ← loadAt m ha (pa + i)
    let y ← rhsNum m r
    let m ← storeAt m ho (po + i) (f x y)
    scalarLoop f ha pa r ho po (i + 1) n m

/-- `Mul::scale` (lube/math.cpp:490-544): the number is converted once.  Copying and then scaling
    in place is done element by element here. -/
def scale (f : α → α → α) (a : Ref) (r : Rhs α) (o : Ref) (m : Mem α) : Outcome (Mem α) := do
  let A ← arrOf m a
  let O ← arrOf m o
  let pa ← offset A
  let po ← offset O
  let n ← size A
  match a.kind with
  | .float | .double => do
    let y ← rhsNum m r
    scalarLoop f a.heap pa (.num y) o.heap po 0 n.toNat m
  | _ => .thrown (.error "Mul::scal: Unknown type")

/-- The loop over offsets (lube/func.cpp:297-298) for operations `i .. i+n-1`. -/
def blockLoop (g : Int → Int → Mem α → Outcome (Mem α)) (stepA stepO : Int) (i : Nat) :
    Nat → Mem α → Outcome (Mem α)
  | 0, m => .ok m
  | n + 1, m => do
    let m ← g (stepA * i) (stepO * i) m
    blockLoop g stepA stepO (i + 1) n m

/-- `ArithmeticFunctor::broadcast` for a right operand that has size 1 and dimension 1
    (lube/func.cpp:262-274) and `Mul::broadcast` (lube/math.cpp:476-490). -/
def broadcastOne (fn : Fn) (f : α → α → α) (a : Ref) (r : Rhs α) (o : Ref) (m : Mem α) : Outcome (Mem α) :=
  if fn = .mul then scale f a r o m
  else do
    let A ← arrOf m a
    let O ← arrOf m o
    let pa ← offset A
    let po ← offset O
    let n ← size A
    scalarLoop f a.heap pa r o.heap po 0 n.toNat m

/-- `ArithmeticFunctor::broadcast` (lube/func.cpp:257-299), which `scalar()` of the functors calls
    for arrays.  The size of the output is that of the first operand. -/
def broadcast (fn : Fn) (f : α → α → α) (a : Ref) (r : Rhs α) (o : Ref) (m : Mem α) : Outcome (Mem α) :=
  match r with
  | .num _ | .elem _ _ => broadcastOne fn f a r o m
  | .arr b => do
    let A ← arrOf m a
    let B ← arrOf m b
    let O ← arrOf m o
    let sb ← size B
    if dim B = 1 ∧ sb = 1 then broadcastOne fn f a r o m
    else if dim B > dim A then .thrown (.error "var::broadcast: input dimension too large")
    else if a.kind ≠ b.kind then .thrown (.error "var::broadcast: types must match (for now)")
    else do
      let stepA ← blockStep A (dim B)
      let stepO ← blockStep O (dim B)
      let sa ← size A
      if stepA = 0 then .ub .divZero
      else blockLoop (fun offA offO m => vector fn f a offA b o offO m) stepA stepO 0 (sa.tdiv stepA).toNat m

/-- `cast<cdouble>()` of a right operand (lube/var.cpp:53-60, 147-149, 646-700): of an array it is the first element, taken for a
    `cdouble` whatever it is; an element of an array of `cdouble` loses its imaginary part (698), which `re` does. -/
def rhsFirst (re : α → α) (m : Mem α) : Rhs α → Outcome α
  | .num x => .ok x
  | .elem h i => do
    let x ← loadAt m h i
    .ok (re x)
  | .arr b =>
    if b.kind = .cdouble then do
      let B ← arrOf m b
      let p ← offset B
      loadAt m b.heap p
    else .ub .typePun

/-- `scalar()` of the functors for `cdouble` (lube/math.cpp:238-240, 353-355, 432-434, 572-574, 777-779): the first element of each operand. -/
def onFirst (f : α → α → α) (re : α → α) (a : Ref) (r : Rhs α) (o : Ref) (m : Mem α) : Outcome (Mem α) := do
  let A ← arrOf m a
  let O ← arrOf m o
  let pa ← offset A
  let po ← offset O
  let x ← loadAt m a.heap pa
  let y ← rhsFirst re m r
  storeAt m o.heap po (f x y)

/-- `scalar()` of the functors for an array (lube/math.cpp:213-244, 328-359, 407-438, 547-577, 752-783): `type()` takes an array of `cdouble` for a
    number (76-82). -/
def scalar (fn : Fn) (f : α → α → α) (re : α → α) (a : Ref) (r : Rhs α) (o : Ref) (m : Mem α) : Outcome (Mem α) :=
  if a.kind = .cdouble then onFirst f re a r o m else broadcast fn f a r o m

/-- `a op= r` (lube/var.h:105-108): the output is the left operand itself. -/
def assignOp (fn : Fn) (f : α → α → α) (re : α → α) (a : Ref) (r : Rhs α) (m : Mem α) : Outcome (Mem α) :=
  scalar fn f re a r a m

/-- `copy(true)` of an array (lube/var.cpp:584-597, lube/heap.cpp:71-77, lube/view.cpp:26-34): a new
    heap of the same size, at the end of memory, with the same metadata.  `junk` is what the new
    storage holds; it has the size of the old storage. -/
def allocLike (a : Ref) (junk : List α) (m : Mem α) : Ref × Mem α :=
  (⟨a.kind, m.length, a.ip⟩, m ++ [junk])

/-- `a op r` (lube/var.h:109-112; lube/func.cpp:134-153): the result is new. -/
def binOp (fn : Fn) (f : α → α → α) (re : α → α) (a : Ref) (r : Rhs α) (junk : List α) (m : Mem α) :
    Outcome (Ref × Mem α) := do
  let (o, m) := allocLike a junk m
  let m ← scalar fn f re a r o m
  .ok (o, m)

/-- `View::copyable` (lube/view.cpp:153-167) for a view `v` and an array `b`. -/
def copyable (m : Mem α) (v b : Ref) : Outcome Bool := do
  let V ← arrOf m v
  let B ← arrOf m b
  if v.kind ≠ b.kind then .ok false
  else if dim V ≠ dim B then .ok false
  else if dim V = 1 then do
    let s ← size V
    let t ← size B
    .ok (s = t)
  else do
    let s ← shapeLoop V 0 (dim V)
    let t ← shapeLoop B 0 (dim V)
    .ok (s = t)

/-- Assignment to a var that holds a view, from an array (lube/var.cpp:276-339): the var afterwards
    and the memory.  If the elements can be copied they are (319-325); otherwise the var lets go of
    its view and shares the array (326-337). -/
def assignView (v b : Ref) (m : Mem α) : Outcome (Ref × Mem α) := do
  if ← copyable m v b then do
    let m ← scalar .set (fun _ y => y) id v (.arr b) v m
    .ok (v, m)
  else .ok (b, m)

/-- The loop of `blas::swap` (called at lube/math.cpp:295-320) for `j .. j+n-1`. -/
def swapLoop (ha : Nat) (pa : Int) (hb : Nat) (pb : Int) (j : Nat) : Nat → Mem α → Outcome (Mem α)
  | 0, m => .ok m
  | n + 1, m => do
    let x ← loadAt m ha (pa + j)
    let y ← loadAt m hb (pb + j)
    let m ← storeAt m ha (pa + j) y
    let m ← storeAt m hb (pb + j) x
    swapLoop ha pa hb pb (j + 1) n m

/-- The loop of `BinaryFunctor::broadcast` (lube/func.cpp:246-247) calling `Swap::vector`
    (lube/math.cpp:284-325), for operations `i .. i+n-1`.  Each call swaps as many elements as the
    whole first operand has (291). -/
def swapBlocks (a b : Ref) (pa pb stepA stepB : Int) (size : Nat) (i : Nat) : Nat → Mem α → Outcome (Mem α)
  | 0, m => .ok m
  | n + 1, m => do
    let m ← swapLoop a.heap (pa + stepA * i) b.heap (pb + stepB * i) 0 size m
    swapBlocks a b pa pb stepA stepB size (i + 1) n m

/-- `swap(a, b)` (lube/func.cpp:146-153, 229-248, lube/math.cpp:278-325, `mDim` 1).  For `cdouble` the assertion that the operand is an array fails
    (290, 76-82). -/
def swap (a b : Ref) (m : Mem α) : Outcome (Mem α) := do
  let A ← arrOf m a
  let B ← arrOf m b
  if a.kind ≠ b.kind then .thrown (.error "var::broadcast: types must match (for now)")
  else do
    let cdim := dim A - 1
    let stepA ← if cdim > 0 then stride A ((cdim : Int) - 1) else .ok 0
    let stepB ← if cdim > 0 then stride B ((cdim : Int) - 1) else .ok 0
    let sa ← size A
    let pa ← offset A
    let pb ← offset B
    if cdim > 0 ∧ stepA = 0 then .ub .divZero
    else
      let nOps := if cdim > 0 then (sa.tdiv stepA).toNat else 1
      if nOps = 0 then .ok m
      else match a.kind with
        | .int | .long => .thrown (.error "Swap::vector: Unknown type")
        | .cdouble => .abort
        | _ => swapBlocks a b pa pb stepA stepB sa.toNat 0 nOps m

end Libube.Arith

import Verif.Model.Outcome
import Verif.Model.Kind
import Verif.Model.AllocSize

/-! # Memory: variables, reference counted arrays, references (lube/var.cpp, lube/heap.cpp)

The machine has a stack of variables and a store of arrays.  Views are not modelled here.  Numbers
are of an arbitrary type `α`; conversions between element types, reading a number from a string and
the order of map keys are parameters (`Env`). -/

namespace Libube.Mem

/-- Where an array lives.  Addresses are not reused. -/
notation "Addr" => Nat

/-- A `var` (lube/var.h:202-222): nil (`mType` 0 and no heap), a number, an array, or a reference
    to an element of an array (`mType` negative).  `char` is a number.  `bad` has the type code of an
    element of an array of vars or pairs; an assignment that fails leaves it behind (lube/var.cpp:1292,
    1317).  It contains a pointer, but that is never used or counted. -/
inductive V (α : Type) where
  | nil
  | bad (k : Kind)
  | num (k : Kind) (x : α)
  | arr (a : Addr)
  | ref (a : Addr) (i : Nat)
deriving DecidableEq

/-- A place in an array (lube/heap.h:156-166): a number or uninitialised memory, a var, or a pair of
    vars. -/
inductive Cell (α : Type) where
  | raw (x : Option α)
  | var (v : V α)
  | pair (k v : V α)
deriving DecidableEq

/-- A `Heap` (lube/heap.h:87-183): element type, `mSize`, `mRefCount`, and as many places as
    `mCapacity`. -/
structure Obj (α : Type) where
  kind : Kind
  size : Nat
  rc : Nat
  cells : List (Cell α)
deriving DecidableEq

/-- All arrays (`none` is freed) and all variables and temporaries alive. -/
structure State (α : Type) where
  mem : List (Option (Obj α))
  stk : List (V α)
deriving DecidableEq

/-- What the machine does not define itself: conversion of a number (lube/var.cpp:646-700), the
    number NUL, reading a number from the characters of a string (659-668), and the comparison of map
    keys (508-575). -/
class Env (α : Type) where
  conv : Kind → Kind → α → α
  nul : α
  parse : Kind → List (Cell α) → Option α
  less : List (Option (Obj α)) → V α → V α → Bool
  differ : List (Option (Obj α)) → V α → V α → Bool

/-- Results of calls: as `Outcome`, but an exception leaves a state. -/
inductive R (α β : Type) where
  | ok (b : β) (s : State α)
  | thrown (e : Exn) (s : State α)
  | ub (u : UB)
  | abort
  | diverge
deriving DecidableEq

/-- Calls. -/
def M (α β : Type) := State α → R α β

/-- Sequencing: an exception passes. -/
def M.bind (m : M α β) (f : β → M α γ) : M α γ := fun s =>
  match m s with
  | .ok b s => f b s
  | .thrown e s => .thrown e s
  | .ub u => .ub u
  | .abort => .abort
  | .diverge => .diverge

instance : Monad (M α) where
  pure b := fun s => .ok b s
  bind := M.bind

def throwE (e : Exn) : M α β := fun s => .thrown e s
def undef (u : UB) : M α β := fun _ => .ub u
def abortM : M α β := fun _ => .abort
def getMem : M α (List (Option (Obj α))) := fun s => .ok s.mem s
def setMem (m : List (Option (Obj α))) : M α Unit := fun s => .ok () { s with mem := m }

/-- A result without state. -/
def liftO (x : Outcome β) : M α β := fun s =>
  match x with
  | .ok b => .ok b s
  | .thrown e => .thrown e s
  | .ub u => .ub u
  | .abort => .abort
  | .diverge => .diverge

/-- An array that must be alive: the access `mData.hp->...`. -/
def obj (a : Addr) : M α (Obj α) := fun s =>
  match s.mem[a]? with
  | some (some o) => .ok o s
  | _ => .ub .useAfterFree

/-- Changing an array that is alive. -/
def setObj (a : Addr) (o : Obj α) : M α Unit := fun s => .ok () { s with mem := s.mem.set a (some o) }

/-- Where a `var` can be: a variable or temporary, an element of an array (the value of a pair), the
    key of a pair. -/
inductive Loc where
  | slot (n : Nat)
  | cell (a : Addr) (i : Nat)
  | key (a : Addr) (i : Nat)
deriving DecidableEq

/-- Reading a `var` at its address. -/
def readLoc : Loc → M α (V α)
  | .slot n => fun s =>
    match s.stk[n]? with
    | some v => .ok v s
    | none => .ub .badPointer
  | .cell a i => do
    let o ← obj a
    match o.cells[i]? with
    | some (.var v) => pure v
    | some (.pair _ v) => pure v
    | some (.raw _) => undef .typePun
    | none => undef .outOfBounds
  | .key a i => do
    let o ← obj a
    match o.cells[i]? with
    | some (.pair k _) => pure k
    | some _ => undef .typePun
    | none => undef .outOfBounds

/-- Writing `mData` and `mType` of a `var` at its address. -/
def writeLoc (l : Loc) (v : V α) : M α Unit :=
  match l with
  | .slot n => fun s => if n < s.stk.length then .ok () { s with stk := s.stk.set n v } else .ub .badPointer
  | .cell a i => do
    let o ← obj a
    match o.cells[i]? with
    | some (.var _) => setObj a { o with cells := o.cells.set i (.var v) }
    | some (.pair k _) => setObj a { o with cells := o.cells.set i (.pair k v) }
    | some (.raw _) => undef .typePun
    | none => undef .outOfBounds
  | .key a i => do
    let o ← obj a
    match o.cells[i]? with
    | some (.pair _ w) => setObj a { o with cells := o.cells.set i (.pair v w) }
    | some _ => undef .typePun
    | none => undef .outOfBounds

/-- The array a `var` keeps alive: arrays and references hold one count (lube/var.cpp:952-976). -/
def V.ptr : V α → Option Addr
  | .arr a => some a
  | .ref a _ => some a
  | _ => none

/-- The arrays a place of an array keeps alive. -/
def Cell.ptrs : Cell α → List Addr
  | .raw _ => []
  | .var v => v.ptr.toList
  | .pair k v => k.ptr.toList ++ v.ptr.toList

/-- The arrays the places of an array keep alive. -/
def Obj.ptrs (o : Obj α) : List Addr := o.cells.flatMap Cell.ptrs

/-- `var::attach()` (lube/var.cpp:952-962), `Heap::attach` (lube/heap.cpp:207-211). -/
def attachV (v : V α) : M α Unit :=
  match v.ptr with
  | none => pure ()
  | some a => do
    let o ← obj a
    setObj a { o with rc := o.rc + 1 }

/-- `Heap::detach` (lube/heap.cpp:213-223) for each of the addresses; an array whose count falls to
    zero is freed, and its elements are destroyed (`dealloc`, 358-392, with `var::~var`,
    lube/var.cpp:237-249), the last one first.  The array itself is removed before its elements are
    destroyed, not after.  The first number bounds the steps. -/
def release : Nat → List Addr → List (Option (Obj α)) → Outcome (List (Option (Obj α)))
  | _, [], mem => .ok mem
  | 0, _, _ => .diverge
  | n + 1, a :: rest, mem =>
    match mem[a]? with
    | some (some o) =>
      if o.rc = 0 then .abort
      else if o.rc = 1 then release n (o.ptrs.reverse ++ rest) (mem.set a none)
      else release n rest (mem.set a (some { o with rc := o.rc - 1 }))
    | _ => .ub .useAfterFree

/-- How many pointers there are in all arrays together. -/
def weight (mem : List (Option (Obj α))) : Nat :=
  (mem.map fun x => match x with | some o => o.ptrs.length | none => 0).sum

/-- `var::detach()` (lube/var.cpp:969-976); also `var::~var` (237-249). -/
def detachV (v : V α) : M α Unit := do
  let mem ← getMem
  let mem ← liftO (release (weight mem + 1) v.ptr.toList mem)
  setMem mem

/-- Copy constructor (lube/var.cpp:260-266). -/
def copyV (v : V α) : M α (V α) := do
  attachV v
  pure v

/-- The life of a variable or temporary: it is destroyed at the end, also after an exception. -/
def withVar (v : V α) (f : Loc → M α β) : M α β := fun s =>
  let n := s.stk.length
  match f (.slot n) { s with stk := s.stk ++ [v] } with
  | .ok b s' =>
    match s'.stk[n]? with
    | none => .ub .badPointer
    | some w =>
      match detachV w { s' with stk := s'.stk.take n } with
      | .ok _ s'' => .ok b s''
      | .thrown e s'' => .thrown e s''
      | .ub u => .ub u
      | .abort => .abort
      | .diverge => .diverge
  | .thrown e s' =>
    match s'.stk[n]? with
    | none => .ub .badPointer
    | some w =>
      match detachV w { s' with stk := s'.stk.take n } with
      | .ok _ s'' => .thrown e s''
      | .thrown e s'' => .thrown e s''
      | .ub u => .ub u
      | .abort => .abort
      | .diverge => .diverge
  | .ub u => .ub u
  | .abort => .abort
  | .diverge => .diverge

/-- A new place (lube/heap.cpp:314-355): numbers are left uninitialised
    (complex ones are zero in C++; here their values are unknown, too). -/
def freshCell (k : Kind) : Cell α :=
  match k with
  | .var => .var .nil
  | .pair => .pair .nil .nil
  | _ => .raw none

/-- Obtaining memory in `Heap::resize` (lube/heap.cpp:235-262) for a capacity of `c`.  When memory is
    obtained anew, every var is shared by the new place and then destroyed in the old one, which
    changes no count in the end; here it is moved. -/
def growCells (k : Kind) (cells : List (Cell α)) (c : Int) : Outcome (List (Cell α)) :=
  if cells.length = 0 then
    if c < 0 then .abort else .ok (List.replicate c.toNat (freshCell k))
  else if (cells.length : Int) < c then
    .ok (cells ++ List.replicate (c.toNat - cells.length) (freshCell k))
  else .ok cells

/-- The terminating NUL (lube/heap.cpp:267-268). -/
def terminate [Env α] (k : Kind) (cells : List (Cell α)) (n : Nat) : Outcome (List (Cell α)) :=
  if k = .char then
    if n < cells.length then .ok (cells.set n (.raw (some Env.nul))) else .ub .outOfBounds
  else .ok cells

/-- `Heap::resize` (lube/heap.cpp:225-271). -/
def resizeObj [Env α] (o : Obj α) (n : Nat) : Outcome (Obj α) := do
  let c ← Alloc.allocSize (if o.kind = .char then (n : Int) + 1 else n)
  let cells ← growCells o.kind o.cells c
  let cells ← terminate o.kind cells n
  .ok { o with size := n, cells := cells }

/-- `Heap::resize` of an array in the store. -/
def heapResize [Env α] (a : Addr) (n : Nat) : M α Unit := do
  let o ← obj a
  let o ← liftO (resizeObj o n)
  setObj a o

/-- `Heap(int, ind)` (lube/heap.cpp:80-85) attached to a var (lube/var.cpp:952-959); `none` is
    `TYPE_ARRAY`. -/
def newHeap [Env α] (n : Nat) (k : Option Kind) : M α Addr := do
  let k := k.getD .var
  let o ← liftO (resizeObj ⟨k, 0, 1, []⟩ n)
  fun s => .ok s.mem.length { s with mem := s.mem ++ [some o] }

/-- Attaching an array already made, with count 1, to a new var. -/
def pushObj (o : Obj α) : M α Addr := fun s => .ok s.mem.length { s with mem := s.mem ++ [some o] }

/-- `Heap::deref` (lube/heap.cpp:108-118) for a reference: the place referred to, if it is a var. -/
def derefLoc (a : Addr) (i : Nat) : M α (Option Loc) := do
  let o ← obj a
  match o.kind with
  | .var | .pair => pure (some (.cell a i))
  | _ => pure none

/-- The var behind a reference.  Elements of arrays are never references (theorem
    `cells_not_refs`), so one step is enough. -/
def derefV (v : V α) : M α (V α) :=
  match v with
  | .ref a i => do
    match ← derefLoc a i with
    | some l => do
      match ← readLoc l with
      | .ref _ _ => undef .badPointer
      | w => pure w
    | none => pure v
  | _ => pure v

/-- `var::heap()` (lube/var.cpp:1241-1246). -/
def heapOf (v : V α) : M α (Option Addr) := do
  match ← derefV v with
  | .arr a => pure (some a)
  | _ => pure none

/-- `var::size()` (lube/var.cpp:608-615). -/
def sizeV (v : V α) : M α Nat := do
  match ← derefV v with
  | .nil => pure 0
  | .arr a => do
    let o ← obj a
    pure o.size
  | _ => pure 1

/-- `var::type()` (lube/var.cpp:622-627); `none` is `TYPE_ARRAY`. -/
def typeV (v : V α) : M α (Option Kind) := do
  match ← derefV v with
  | .nil => pure none
  | .num k _ => pure (some k)
  | .bad k => pure (some k)
  | .arr _ => pure none
  | .ref a _ => do
    let o ← obj a
    pure (some o.kind)

/-- `var::defined()` (lube/var.cpp:600-605). -/
def definedV (v : V α) : M α Bool := do
  match ← derefV v with
  | .nil => pure false
  | _ => pure true

/-- The number at a place: `*mData.hp->ptrT(i)` (lube/heap.h:96-107). -/
def rawAt (a : Addr) (i : Nat) : M α α := do
  let o ← obj a
  match o.cells[i]? with
  | some (.raw (some x)) => pure x
  | some (.raw none) => undef .uninit
  | some _ => undef .typePun
  | none => undef .outOfBounds

/-- Storing a number at a place. -/
def setRaw (a : Addr) (i : Nat) (x : α) : M α Unit := do
  let o ← obj a
  match o.cells[i]? with
  | some (.raw _) => setObj a { o with cells := o.cells.set i (.raw (some x)) }
  | some _ => undef .typePun
  | none => undef .outOfBounds

/-- `cast<T>()` (lube/var.cpp:129-149, 646-700): a number is converted, a string read; the number of
    any other array or of nil is taken from the pointer.  The single element of an array of `cdouble`
    is a number for `cast<cdouble>()` (52-60). -/
def castV [Env α] (k : Kind) (v : V α) : M α α := do
  match ← derefV v with
  | .num j x => pure (Env.conv j k x)
  | .bad _ => throwE (.error "Cast::operator(): Unknown type")
  | .ref a i => do
    let o ← obj a
    let x ← rawAt a i
    pure (Env.conv o.kind k x)
  | .nil => undef .typePun
  | .arr a => do
    let o ← obj a
    match o.kind, k with
    | .cdouble, .cdouble => rawAt a 0
    | .char, .cdouble => undef .typePun
    | .char, _ =>
      match Env.parse k (o.cells.take o.size) with
      | some x => pure x
      | none => throwE .ioFailure
    | _, _ => undef .typePun

/-- `var::operator=` for a var that is no reference, without the last step (lube/var.cpp:326-335, no
    views): `v` has been copied by the caller.  The old array is released after the new one is
    taken. -/
def share (l : Loc) (v : V α) : M α Unit := do
  let t ← readLoc l
  attachV v
  writeLoc l v
  match t with
  | .arr a => detachV (.arr a)
  | _ => pure ()

/-- `var::dereference` (lube/var.cpp:1271-1323): the place of the var referred to, or the variable
    itself.  A var that refers to itself gets a wrong type code before the exception (1292, 1317). -/
def dereference [Env α] (l : Loc) : M α Loc := do
  match ← readLoc l with
  | .ref a i => do
    match ← derefLoc a i with
    | some r =>
      if r = l then do
        let o ← obj a
        writeLoc l (.bad o.kind)
        throwE (.error "var::dereference(): Unknown type")
      else do
        writeLoc l (.arr a)
        let w ← readLoc r
        match w with
        | .ref _ _ => undef .badPointer
        | w => do
          attachV w
          share l w
          detachV w
          pure r
    | none => do
      let o ← obj a
      let x ← rawAt a i
      if o.kind = .cdouble then do
        let b ← newHeap 1 (some .cdouble)
        setRaw b 0 x
        writeLoc l (.arr b)
        detachV (.arr a)
        pure l
      else do
        writeLoc l (.num o.kind x)
        detachV (.arr a)
        pure l
  | _ => pure l

/-- `var::operator=` for a var that is no reference (lube/var.cpp:326-337); `v` is destroyed at the
    end. -/
def assignPlain [Env α] (l : Loc) (v : V α) : M α Unit :=
  withVar v fun _ => do
    match ← readLoc l with
    | .ref _ _ => undef .badPointer
    | _ => do
      share l v
      let _ ← dereference l
      pure ()

/-- `var::operator=` (lube/var.cpp:276-339); `v` is destroyed at the end. -/
def assign [Env α] (l : Loc) (v : V α) : M α Unit := do
  match ← readLoc l with
  | .ref a i => withVar v fun _ => do
    let o ← obj a
    match o.kind with
    | .var | .pair => do
      attachV v
      assignPlain (.cell a i) v
    | k => do
      let x ← castV k v
      setRaw a i x
  | _ => assignPlain l v

/-- `var::reference(int)` (lube/var.cpp:1254-1261); index -1 gives `mType` 0, which is the array, and
    lower ones the type of a number. -/
def reference (v : V α) (i : Int) : M α (V α) := do
  match ← typeV v with
  | none =>
    match v with
    | .nil => undef .nullDeref
    | .num _ _ => undef .typePun
    | .bad _ => undef .typePun
    | .arr a | .ref a _ => do
      if i < -1 then undef .typePun
      else do
        attachV v
        pure (if i = -1 then .arr a else .ref a i.toNat)
  | some _ => throwE (.error "var::reference: cannot reference non array")

/-- `var::at(int)` (lube/var.cpp:808-819). -/
def at' [Env α] (v : V α) (i : Int) : M α (V α) := do
  attachV v
  withVar v fun l => do
    let _ ← dereference l
    let w ← readLoc l
    match w with
    | .nil => throwE (.error "var::at(): uninitialised")
    | .arr _ => reference w i
    | w => if i = 0 then copyV w else throwE (.error "var::at(): Index out of bounds")

/-- Element assignment `at(i) = v`. -/
def setAt [Env α] (t : V α) (i : Int) (v : V α) : M α Unit :=
  withVar v fun _ => do
    let r ← at' t i
    withVar r fun lr => do
      attachV v
      assign lr v

/-- Making an array of a var that is a number or nil (lube/var.cpp:931-937, 906-909): the type of the
    new array is that of the number. -/
def wrap [Env α] (l : Loc) (n : Nat) : M α Unit := do
  let v ← readLoc l
  match v with
  | .nil => do
    let b ← newHeap n none
    writeLoc l (.arr b)
  | .num k _ => do
    let b ← newHeap n (some k)
    writeLoc l (.arr b)
    setAt (.arr b) 0 v
  | .bad k => do
    let b ← newHeap n (some k)
    writeLoc l (.arr b)
    setAt (.arr b) 0 v
  | _ => undef .badPointer

/-- `var::resize` (lube/var.cpp:915-946). -/
def resize [Env α] (l : Loc) (n : Int) : M α Unit := do
  if n < 0 then abortM
  else do
    let r ← dereference l
    let v ← readLoc r
    match v with
    | .arr _ => do
      match ← heapOf (← readLoc l) with
      | some a => heapResize a n.toNat
      | none => undef .nullDeref
    | .nil => wrap r n.toNat
    | .num _ _ | .bad _ => if n > 1 then wrap r n.toNat else pure ()
    | .ref _ _ => undef .badPointer

/-- `var::array` (lube/var.cpp:901-912). -/
def array [Env α] (l : Loc) : M α Unit := do
  let r ← dereference l
  match ← readLoc r with
  | .arr _ => pure ()
  | .nil => do
    wrap r 1
    setAt (← readLoc r) 0 .nil
  | _ => wrap r 1

/-- `var::presize` (lube/var.cpp:1227-1234). -/
def presize [Env α] (l : Loc) (n : Int) : M α Unit := do
  let m ← sizeV (← readLoc l)
  resize l n
  resize l m

/-- The loop of `Heap::append` (lube/heap.cpp:177-178) from place `i`. -/
def fillRaw (a : Addr) : Nat → List α → M α Unit
  | _, [] => pure ()
  | i, x :: xs => do
    setRaw a i x
    fillRaw a (i + 1) xs

/-- `Heap::append` (lube/heap.cpp:172-183) of numbers of type `k` outside of the array.  The array is taken to hold such numbers;
    otherwise they are written into it as they are. -/
def heapAppend [Env α] (a : Addr) (k : Kind) (xs : List α) : M α Unit := do
  let o ← obj a
  heapResize a (o.size + xs.length)
  if o.kind = k ∨ xs.length = 0 then fillRaw a o.size xs else undef .typePun

/-- `var::append<T>` (lube/var.cpp:1038-1048), and for characters `var::append(const char*)` (1050-1056). -/
def append [Env α] (l : Loc) (k : Kind) (xs : List α) : M α Unit := do
  array l
  match ← heapOf (← readLoc l) with
  | some a => heapAppend a k xs
  | none => undef .nullDeref

/-- `var::operator[](int)` (lube/var.cpp:711-721) of a var that is no reference. -/
def indexPlain [Env α] (l : Loc) (i : Int) : M α (V α) := do
  if i < 0 then throwE (.error "operator [int]: Negative index")
  else do
    let n ← sizeV (← readLoc l)
    if i ≥ n then resize l (i + 1) else pure ()
    array l
    reference (← readLoc l) i

/-- `var::operator[](int)` (lube/var.cpp:711-721) with `Heap::derefInt` (lube/heap.cpp:163-169). -/
def index [Env α] (l : Loc) (i : Int) : M α (V α) := do
  match ← readLoc l with
  | .ref a j =>
    if i < 0 then throwE (.error "operator [int]: Negative index")
    else do
      match ← derefLoc a j with
      | some r => do
        match ← readLoc r with
        | .ref _ _ => undef .badPointer
        | _ => indexPlain r i
      | none => throwE (.error "Heap::derefInt: Not a reference")
  | _ => indexPlain l i

/-- `x[i] = v`: the temporary reference is assigned; the right side is evaluated first. -/
def setIndex [Env α] (l : Loc) (i : Int) (v : V α) : M α Unit :=
  withVar v fun _ => do
    let r ← index l i
    withVar r fun lr => do
      attachV v
      assign lr v

/-- `var::push` (lube/var.cpp:1066-1089); `v` is destroyed at the end. -/
def push [Env α] (l : Loc) (v : V α) : M α Unit :=
  withVar v fun _ => do
    let t ← readLoc l
    if !(← definedV t) then do
      if (← typeV v) ≠ none then do
        attachV v
        assign l v
      else do
        attachV v
        setIndex l (← sizeV t) v
    else do
      if (← typeV t) ≠ none ∧ (← typeV v) ≠ (← typeV t) then throwE (.error "push(): Incompatible types")
      else do
        attachV v
        setIndex l (← sizeV t) v

/-- `var::pop` (lube/var.cpp:1092-1097): the reference made before the array is shortened is
    returned. -/
def pop [Env α] (l : Loc) : M α (V α) := do
  let t ← readLoc l
  let n ← sizeV t
  let r ← at' t ((n : Int) - 1)
  withVar r fun lr => do
    resize l ((n : Int) - 1)
    copyV (← readLoc lr)

/-- `var::copy` (lube/var.cpp:584-597) with `Heap(const IHeap&)` (lube/heap.cpp:71-77) and `Heap::copy`
    (281-311): the elements are shared.  Memory obtained before the exception is not counted as an
    array. -/
def copyObj [Env α] (o : Obj α) : Outcome (Obj α) := do
  let o' ← resizeObj ⟨o.kind, 0, 1, []⟩ o.size
  match o.kind with
  | .cfloat | .cdouble => .thrown (.error "Heap::copy(): Unknown type")
  | _ =>
    if o.size ≤ o.cells.length ∧ o.size ≤ o'.cells.length then
      .ok { o' with cells := o.cells.take o.size ++ o'.cells.drop o.size }
    else .ub .outOfBounds

/-- Attaching all of a list of arrays. -/
def attachAll : List Addr → M α Unit
  | [] => pure ()
  | a :: as => do
    attachV (.arr a)
    attachAll as

/-- `var::copy()` (lube/var.cpp:584-597). -/
def copy [Env α] (v : V α) : M α (V α) := do
  match ← heapOf v with
  | none => copyV v
  | some a => do
    let o ← obj a
    let o' ← liftO (copyObj o)
    attachAll o'.ptrs
    let b ← pushObj o'
    pure (.arr b)

/-- The loop of `insert` moving elements up (lube/var.cpp:1113-1114, 1133-1134) by `d`, for positions
    `i` down to `i - n + 1`. -/
def moveUp [Env α] (l : Loc) (d : Nat) : Nat → Nat → M α Unit
  | _, 0 => pure ()
  | i, n + 1 => do
    let t ← readLoc l
    let x ← at' t ((i : Int) - d)
    setAt t i x
    moveUp l d (i - 1) n

/-- The last loop of `insert` for numbers (lube/var.cpp:1135-1136): elements `i`, … of `v` (at `lv`). -/
def copyIn [Env α] (l lv : Loc) (p : Int) (i : Nat) : Nat → M α Unit
  | 0 => pure ()
  | n + 1 => do
    if i < (← sizeV (← readLoc lv)) then do
      let x ← index lv i
      setAt (← readLoc l) (p + i) x
      copyIn l lv p (i + 1) n
    else pure ()

/-- The loop of `insert` for pairs (lube/var.cpp:1121-1125), for positions `i` down to `i - n + 1`. -/
def movePairsUp [Env α] (l : Loc) : Nat → Nat → M α Unit
  | _, 0 => pure ()
  | i, n + 1 => do
    let t ← readLoc l
    match ← heapOf t with
    | none => undef .nullDeref
    | some a => do
      let o ← obj a
      if o.kind ≠ .pair then throwE (.error "Heap::key(): Not a key:value pair")
      else if i ≥ o.size then throwE (.rangeError "Heap::at(): index out of bounds")
      else do
        let k ← readLoc (.key a (i - 1))
        attachV k
        assignPlain (.key a i) k
        let x ← at' t ((i : Int) - 1)
        setAt t i x
        movePairsUp l (i - 1) n

/-- The element type of the array of a var, if it has one: `heap() && atype<...>()`
    (lube/var.cpp:1109, 1117). -/
def kindAt (l : Loc) : M α (Option Kind) := do
  match ← heapOf (← readLoc l) with
  | none => pure none
  | some a => do
    let o ← obj a
    pure (some o.kind)

/-- `var::insert` (lube/var.cpp:1104-1140); `v` is destroyed at the end.  The loops run over the size
    found when they start, except the one over the new elements, which looks each time. -/
def insert [Env α] (l : Loc) (v : V α) (p : Nat) : M α Unit :=
  withVar v fun lv => do
    let n ← sizeV (← readLoc l)
    if p > n then throwE (.rangeError "insert(): index too large")
    else do
      match ← kindAt l with
      | some .var => do
        resize l (n + 1)
        moveUp l 1 n (n - p)
        attachV v
        setAt (← readLoc l) p v
      | some .pair => do
        resize l (n + 1)
        movePairsUp l n (n - p)
        match ← heapOf (← readLoc l) with
        | none => undef .nullDeref
        | some a => do
          attachV v
          assignPlain (.key a p) v
          setAt (← readLoc l) p .nil
      | _ => do
        let m ← sizeV v
        resize l (n + m)
        let n' ← sizeV (← readLoc l)
        let m' ← sizeV (← readLoc lv)
        moveUp l m' (n' - 1) (n' - (p + m'))
        copyIn l lv p 0 (← sizeV (← readLoc lv))

/-- The loop of `remove` (lube/var.cpp:1150-1151), for positions `i`, … -/
def moveDown [Env α] (l : Loc) (i : Nat) : Nat → M α Unit
  | 0 => pure ()
  | n + 1 => do
    let t ← readLoc l
    let x ← at' t i
    setAt t ((i : Int) - 1) x
    moveDown l (i + 1) n

/-- `var::remove` (lube/var.cpp:1143-1154).  The loop runs over the size found at the start. -/
def remove [Env α] (l : Loc) (i : Nat) : M α (V α) := do
  let t ← readLoc l
  let n ← sizeV t
  if i + 1 > n then throwE (.rangeError "remove(): index too large")
  else do
    let x ← at' t i
    let r ← withVar x fun lx => do copy (← readLoc lx)
    withVar r fun lr => do
      moveDown l (i + 1) (n - (i + 1))
      resize l ((n : Int) - 1)
      copyV (← readLoc lr)

/-- The places after the first element has gone and the others have moved down
    (lube/heap.cpp:510-521): a new var at the end. -/
def shiftedVars (o : Obj α) : List (Cell α) :=
  (o.cells.take o.size).drop 1 ++ freshCell o.kind :: o.cells.drop o.size

/-- The same for numbers (lube/heap.cpp:482-509): the last one is still there. -/
def shiftedRaws (o : Obj α) : List (Cell α) :=
  (o.cells.take o.size).drop 1 ++ o.cells.drop (o.size - 1)

/-- Destroying the vars at a place, the last one first. -/
def destroy : List Addr → M α Unit
  | [] => pure ()
  | a :: as => do
    destroy as
    detachV (.arr a)

/-- The var returned by `Heap::shift` for numbers (lube/heap.cpp:482-509). -/
def boxed [Env α] (k : Kind) (x : α) : M α (V α) :=
  if k = .cdouble then do
    let b ← newHeap 1 (some .cdouble)
    setRaw b 0 x
    pure (.arr b)
  else pure (.num k x)

/-- The var and pair cases of `Heap::shift` (lube/heap.cpp:510-521).  The first element is copied and
    destroyed after the others have moved, not before. -/
def shiftVars [Env α] (a : Addr) (o : Obj α) : M α (V α) :=
  match o.cells with
  | [] => undef .outOfBounds
  | c :: _ => do
    let v ← readLoc (.cell a 0)
    setObj a { o with cells := shiftedVars o }
    attachV v
    destroy c.ptrs
    heapResize a (o.size - 1)
    pure v

/-- The other cases of `Heap::shift` (lube/heap.cpp:480-509). -/
def shiftNums [Env α] (a : Addr) (o : Obj α) : M α (V α) := do
  let x ← rawAt a 0
  setObj a { o with cells := shiftedRaws o }
  heapResize a (o.size - 1)
  boxed o.kind x

/-- `Heap::shift` (lube/heap.cpp:472-529).  The number of bytes to move is negative for an empty
    array, and too large if there is no memory for the elements. -/
def heapShift [Env α] (a : Addr) : M α (V α) := do
  let o ← obj a
  if o.size = 0 ∨ o.cells.length < o.size then undef .outOfBounds
  else if o.kind = .var ∨ o.kind = .pair then shiftVars a o
  else shiftNums a o

/-- `var::shift` (lube/var.cpp:1157-1163). -/
def shift [Env α] (l : Loc) : M α (V α) := do
  let t ← readLoc l
  match ← heapOf t with
  | some a => heapShift a
  | none => copyV t

/-- `get<T>()` (lube/var.cpp:34-60): no conversion; a number of another type is misread. -/
def getV (k : Kind) (v : V α) : M α α := do
  match ← derefV v with
  | .num j x => if j = k then pure x else undef .typePun
  | .ref a i => do
    let o ← obj a
    if o.kind = k then rawAt a i else undef .typePun
  | .arr a => do
    let o ← obj a
    if k = .cdouble ∧ o.kind = .cdouble then rawAt a 0 else undef .typePun
  | _ => undef .typePun

/-- The places after the elements have moved up by one (lube/heap.cpp:540-571), the first one given;
    the size has been increased already.  The place after the former last element is overwritten
    without destroying the var in it. -/
def unshifted (c : Cell α) (o : Obj α) : List (Cell α) :=
  c :: (o.cells.take (o.size - 1) ++ o.cells.drop o.size)

/-- The var case of `Heap::unshift` (lube/heap.cpp:568-572), after resizing. -/
def unshiftVars [Env α] (a : Addr) (o : Obj α) (v : V α) : M α Unit :=
  if o.cells.length < o.size then undef .outOfBounds
  else do
    setObj a { o with cells := unshifted (.var .nil) o }
    attachV v
    assignPlain (.cell a 0) v

/-- The cases of numbers in `Heap::unshift` (lube/heap.cpp:540-567), after resizing. -/
def unshiftNums [Env α] (a : Addr) (o : Obj α) (v : V α) : M α Unit :=
  if o.cells.length < o.size then undef .outOfBounds
  else
    match o.cells with
    | [] => undef .outOfBounds
    | c :: _ => do
      setObj a { o with cells := unshifted c o }
      let x ← getV o.kind v
      setRaw a 0 x

/-- `Heap::unshift` (lube/heap.cpp:535-578); `v` is destroyed at the end. -/
def heapUnshift [Env α] (a : Addr) (v : V α) : M α Unit :=
  withVar v fun _ => do
    let o ← obj a
    heapResize a (o.size + 1)
    let o ← obj a
    if o.kind = .var then unshiftVars a o v
    else if o.kind = .pair then throwE (.error "Heap::unshift(): Can't unshift a pair")
    else unshiftNums a o v

/-- `var::unshift` (lube/var.cpp:1166-1178); `v` is destroyed at the end. -/
def unshift [Env α] (l : Loc) (v : V α) : M α Unit :=
  withVar v fun _ => do
    let t ← readLoc l
    if !(← definedV t) then do
      attachV v
      assign l v
    else do
      match ← heapOf t with
      | some _ => pure ()
      | none => array l
      match ← heapOf (← readLoc l) with
      | some a => do
        attachV v
        heapUnshift a v
      | none => undef .nullDeref

/-- The search of `binary` (lube/var.cpp:1329-1348) in the keys of a map; the first number bounds the
    steps. -/
def searchKeys [Env α] (a : Addr) (v : V α) : Nat → Nat → Nat → M α Nat
  | 0, _, _ => fun _ => .diverge
  | f + 1, lo, hi =>
    if lo = hi then pure hi
    else do
      let p := (hi - lo) / 2 + lo
      let o ← obj a
      if p ≥ o.size then throwE (.rangeError "Heap::at(): index out of bounds")
      else do
        let k ← readLoc (.key a p)
        let mem ← getMem
        if Env.less mem k v then searchKeys a v f (p + 1) hi else searchKeys a v f lo p

/-- A new map in a var that is nil (lube/var.cpp:738-742). -/
def makeMap [Env α] (r : Loc) : M α Unit := do
  match ← readLoc r with
  | .nil => do
    let b ← newHeap 0 (some .pair)
    writeLoc r (.arr b)
  | _ => pure ()

/-- `key(p) == v` at a position found by the search (lube/var.cpp:750, 838). -/
def keyFound [Env α] (a : Addr) (v : V α) (p : Nat) : M α Bool := do
  let o ← obj a
  if p ≥ o.size then pure false
  else do
    let k ← readLoc (.key a p)
    let mem ← getMem
    pure (!Env.differ mem k v)

/-- `var::operator[](var)` (lube/var.cpp:735-753) of nil or a map, with a key that is not nil; `v` is
    destroyed at the end.  Other arrays and numbers are not modelled here (`badPointer`). -/
def mapIndex [Env α] (l : Loc) (v : V α) : M α (V α) :=
  withVar v fun _ => do
    let r ← dereference l
    makeMap r
    match ← readLoc r with
    | .arr a => do
      let o ← obj a
      if o.kind ≠ .pair then undef .badPointer
      else do
        let p ← searchKeys a v (o.size + 1) 0 o.size
        if ← keyFound a v p then reference (← readLoc r) p
        else do
          attachV v
          insert r v p
          reference (← readLoc r) p
    | _ => undef .badPointer

/-- `var::at(var)` (lube/var.cpp:829-841) with a key; the reference is made from the var as it is
    (840, 1254-1261). -/
def mapAt [Env α] (t v : V α) : M α (V α) := do
  if !(← definedV t) then throwE (.error "var::at(): uninitialised")
  else do
    match ← heapOf t with
    | none => undef .badPointer
    | some a => do
      let o ← obj a
      if o.kind ≠ .pair then throwE (.error "operator [var]: Not a map")
      else do
        let p ← searchKeys a v (o.size + 1) 0 o.size
        if ← keyFound a v p then reference t p else pure .nil

end Libube.Mem

import Verif.Model.Outcome

/-! # The life of arrays and views (lube/heap.cpp, lube/view.cpp, lube/var.cpp)

Reference counts of arrays and views, without the numbers in them.  A variable holds nil or a number (`none`), or an array or view.  References
(`var r = x[0];`) occur within statements only; variables that hold them are in Model/Mem, which in turn has no views. -/

namespace Libube.Life

/-- What an array holds (lube/heap.h:155-171, 237-240): numbers or characters; vars (a map has two for each entry); or, if it is a view, the array viewed. -/
inductive Body where
  | nums
  | vars (es : List (Option Nat))
  | view (t : Nat)

/-- A `Heap` or `View` (lube/heap.h:168-177, 239) without sizes and types.  -/
structure Obj where
  rc : Nat
  body : Body

/-- The arrays held by the vars of an array in the order in which `delete []` destroys them (lube/heap.cpp:383-388), or by a view (lube/view.cpp:113-117). -/
def Body.kids : Body → List Nat
  | .nums => []
  | .vars es => (es.flatMap Option.toList).reverse
  | .view t => [t]

/-- All that has been allocated; `none` has been freed. -/
abbrev Objs := List (Option Obj)

/-- The variables in scope, the last declared at the end; the arrays; and how many blocks of memory nothing refers to any more without their having been freed. -/
structure State where
  vars : List (Option Nat)
  objs : Objs
  lost : Nat

def start : State := ⟨[], [], 0⟩

/-- An array that is used. -/
def look (m : Objs) (a : Nat) : Outcome Obj :=
  match m[a]? with
  | some (some o) => .ok o
  | _ => .ub .useAfterFree

/-- `Heap::attach` (lube/heap.cpp:207-211). -/
def attach (a : Nat) (m : Objs) : Outcome Objs := do
  let o ← look m a
  .ok (m.set a (some { o with rc := o.rc + 1 }))

/-- `Heap::detach` (lube/heap.cpp:213-223) of several, one after the other.  Where the count becomes 0 what it holds is detached next (`~var`, lube/var.cpp:237-249;
    `View::~View`, lube/view.cpp:113-117).  The memory is marked as free before that rather than after. -/
def release : Nat → List Nat → Objs → Outcome Objs
  | 0, _, _ => .diverge
  | _ + 1, [], m => .ok m
  | n + 1, a :: w, m => do
    let o ← look m a
    if o.rc = 0 then .abort
    else if o.rc = 1 then release n (o.body.kids ++ w) (m.set a none)
    else release n w (m.set a (some { o with rc := o.rc - 1 }))

/-- How many vars and views there are in arrays. -/
def weight : Objs → Nat
  | [] => 0
  | none :: m => weight m
  | some o :: m => o.body.kids.length + weight m

/-- `Heap::detach` (lube/heap.cpp:213-223).  The bound on the number of steps is never reached (Props/Life: `detach_ok`). -/
def detach (a : Nat) (m : Objs) : Outcome Objs := release (weight m + 2) [a] m

/-- `var::attach` and `var::detach` (lube/var.cpp:952-976): nothing happens for nil and numbers. -/
def attachV : Option Nat → Objs → Outcome Objs
  | none, m => .ok m
  | some a, m => attach a m

def detachV : Option Nat → Objs → Outcome Objs
  | none, m => .ok m
  | some a, m => detach a m

/-- Where a var is: a variable, or an element of an array. -/
inductive Slot where
  | var (x : Nat)
  | elem (a i : Nat)

/-- Position `i` of an array of vars. -/
def elem (m : Objs) (a i : Nat) : Outcome (Option Nat) := do
  match (← look m a).body with
  | .vars es =>
    match es[i]? with
    | some e => .ok e
    | none => .ub .outOfBounds
  | _ => .ub .typePun

def read (s : State) : Slot → Outcome (Option Nat)
  | .var x =>
    match s.vars[x]? with
    | some v => .ok v
    | none => .ub .uninit
  | .elem a i => elem s.objs a i

def write (s : State) (p : Option Nat) : Slot → Outcome State
  | .var x => .ok { s with vars := s.vars.set x p }
  | .elem a i => do
    let o ← look s.objs a
    match o.body with
    | .vars es => .ok { s with objs := s.objs.set a (some { o with body := .vars (es.set i p) }) }
    | _ => .ub .typePun

/-- The array itself: that viewed if it is a view (lube/view.cpp:40, lube/heap.h:143, 223). -/
def root (m : Objs) (a : Nat) : Outcome Nat := do
  match (← look m a).body with
  | .view t => .ok t
  | _ => .ok a

/-- Whether the elements are vars (lube/heap.h:121, 219). -/
def ofVars (m : Objs) (a : Nat) : Outcome Bool := do
  let r ← root m a
  match (← look m r).body with
  | .vars _ => .ok true
  | _ => .ok false

/-- `View::copyable` (lube/view.cpp:153-167; lube/heap.h:144): `c` says whether number of dimensions and shape agree, and, among numbers, the types. -/
def copyable (m : Objs) (c : Bool) : Option Nat → Option Nat → Outcome Bool
  | some a, some b => do
    match (← look m a).body with
    | .view _ => do
      let v ← ofVars m a
      let w ← ofVars m b
      .ok (c && v == w)
    | _ => .ok false
  | _, _ => .ok false

/-- `var::operator =` (lube/var.cpp:319-338) with an argument that is not a reference.  The argument holds `p` and is destroyed at the end;
    before, the var is looked at once more (`dereference`).  If the variable is a
    view of the same shape, numbers are copied (`set`; see C66), or there is an exception; either way no var changes. -/
def assign (sl : Slot) (p : Option Nat) (c : Bool) (s : State) : Outcome State := do
  let old ← read s sl
  if ← copyable s.objs c old p then do
    let m ← detachV p s.objs
    .ok { s with objs := m }
  else do
    let s ← write s p sl
    let m ← attachV p s.objs
    let m ← detachV old m
    let _ ← read { s with objs := m } sl
    let m ← detachV p m
    .ok { s with objs := m }

/-- A new array, held by the temporary that is the argument of `assign`. -/
def alloc (b : Body) (m : Objs) : Nat × Objs := (m.length, m ++ [some ⟨1, b⟩])

def attachAll : List Nat → Objs → Outcome Objs
  | [], m => .ok m
  | a :: as, m => do
    let m ← attach a m
    attachAll as m

/-- The statements.  `c` as in `copyable`. -/
inductive Op where
  | decl
  | leave
  | nums (x : Nat) (c : Bool)
  | array (x n : Nat) (c : Bool)
  | assign (x y : Nat) (c : Bool)
  | clear (x : Nat)
  | view (x y : Nat) (fits c : Bool)
  | copy (x y : Nat) (known c : Bool)
  | put (x i y : Nat) (c : Bool)
  | get (x y i : Nat) (c d : Bool)

/-- The variable named `x`. -/
def var (s : State) (x : Nat) : Outcome (Option Nat) := read s (.var x)

/-- `x = y.view(shape);` (lube/var.cpp:1355-1376; lube/view.cpp:37-110).  A shape that does not fit is an exception in a constructor that has called another: the
    destructor runs, but the block for the shape is not freed (lube/heap.cpp:58-61). -/
def view (x y : Nat) (fits c : Bool) (s : State) : Outcome State := do
  match ← var s y with
  | none => .ok s
  | some a => do
    let t ← root s.objs a
    let m ← attach t s.objs
    if fits then
      let (v, m) := alloc (.view t) m
      assign (.var x) (some v) c { s with objs := m }
    else do
      let m ← detach t m
      .ok { s with objs := m, lost := s.lost + 1 }

/-- `new Heap(*a)` (lube/heap.cpp:71-77, 281-311) for an array that is no view, held by a temporary. -/
def copyHeap (a : Nat) (m : Objs) : Outcome (Nat × Objs) := do
  let o ← look m a
  let m ← attachAll o.body.kids m
  .ok (alloc o.body m)

/-- `x = y.copy();` (lube/var.cpp:584-597; lube/view.cpp:26-34; lube/heap.cpp:71-77, 281-311).  Copying arrays of complex numbers is an exception (`known`), after which
    the memory for the numbers, and for the shape if it is a view, is lost. -/
def copy (x y : Nat) (known c : Bool) (s : State) : Outcome State := do
  match ← var s y with
  | none => assign (.var x) none c s
  | some a => do
    match (← look s.objs a).body with
    | .view t =>
      if !known && !(← ofVars s.objs a) then .ok { s with lost := s.lost + 2 }
      else do
        let (h, m) ← copyHeap t s.objs
        let (v, m) := alloc (.view h) m
        assign (.var x) (some v) c { s with objs := m }
    | _ =>
      if !known && !(← ofVars s.objs a) then .ok { s with lost := s.lost + 1 }
      else do
        let (h, m) ← copyHeap a s.objs
        assign (.var x) (some h) c { s with objs := m }

/-- `x[i] = y;` for an array of vars or a view of one; `i` is the position in the array (lube/var.cpp:276-314, 711-721, 1254-1261; lube/heap.h:204-206).  The reference
    holds `x`, the argument `y`, and so does that of the inner assignment. -/
def put (x i y : Nat) (c : Bool) (s : State) : Outcome State := do
  match ← var s x with
  | none => .ub .nullDeref
  | some a => do
    let t ← root s.objs a
    let m ← attach a s.objs
    let p ← var s y
    let m ← attachV p m
    let m ← attachV p m
    let s ← assign (.elem t i) p c { s with objs := m }
    let m ← detachV p s.objs
    let m ← detach a m
    .ok { s with objs := m }

/-- The array a reference refers to (`var::heap`, `Heap::derefHeap`, `Heap::deref`, lube/heap.cpp:108-118, 156-160): none if the elements are not vars, nor if it is
    a view, which does not override these functions and holds integers itself. -/
def arrayAt (m : Objs) (a i : Nat) : Outcome (Option Nat) := do
  match (← look m a).body with
  | .vars _ => elem m a i
  | _ => .ok none

/-- `x = y[i];` (lube/var.cpp:276-339, 1271-1323): the argument is a reference that holds `y`.  `x` becomes a copy of it and is dereferenced.  A number replaces the
    reference; elements of cdouble arrays, for which there is a new array, are left out.  For vars `x` is taken for an array and assigned to, which copies numbers,
    or is an exception, if that is a view of the shape of the element (`d`). -/
def get (x y i : Nat) (c d : Bool) (s : State) : Outcome State := do
  match ← var s y with
  | none => .ub .nullDeref
  | some a => do
    let m ← attach a s.objs
    let s := { s with objs := m }
    let old ← var s x
    let vs ← ofVars m a
    let t ← root m a
    let e ← arrayAt m a i
    if ← copyable m c old e then do
      let m ← detach a m
      .ok { s with objs := m }
    else do
      let s ← write s (some a) (.var x)
      let m ← attach a s.objs
      let m ← detachV old m
      if vs then do
        let e ← elem m t i
        let m ← attachV e m
        let s ← assign (.var x) e d { s with objs := m }
        let m ← detach a s.objs
        .ok { s with objs := m }
      else do
        let s ← write { s with objs := m } none (.var x)
        let m ← detach a s.objs
        let m ← detach a m
        .ok { s with objs := m }

/-- One statement: the state after it, be it ended normally or by an exception. -/
def step : Op → State → Outcome State
  | .decl, s => .ok { s with vars := s.vars ++ [none] }
  | .leave, s =>
    match s.vars.getLast? with
    | none => .ok s
    | some v => do
      let m ← detachV v s.objs
      .ok { s with vars := s.vars.dropLast, objs := m }
  | .nums x c, s =>
    let (a, m) := alloc .nums s.objs
    assign (.var x) (some a) c { s with objs := m }
  | .array x n c, s =>
    let (a, m) := alloc (.vars (List.replicate n none)) s.objs
    assign (.var x) (some a) c { s with objs := m }
  | .assign x y c, s => do
    let p ← var s y
    let m ← attachV p s.objs
    assign (.var x) p c { s with objs := m }
  | .clear x, s => assign (.var x) none false s
  | .view x y f c, s => view x y f c s
  | .copy x y k c, s => copy x y k c s
  | .put x i y c, s => put x i y c s
  | .get x y i c d, s => get x y i c d s

/-- A program. -/
def run : List Op → State → Outcome State
  | [], s => .ok s
  | o :: os, s => do
    let s ← step o s
    run os s

end Libube.Life

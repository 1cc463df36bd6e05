import Verif.Model.Rows
import Mathlib.Data.List.Sort
import Mathlib.Algebra.Order.Group.Unbundled.Abs

/-! # asum, iamax, sort and concatenate (lube/math.cpp, lube/func.cpp)

Arithmetic is that of an ordered ring here, not floating point; there is no NaN.  BLAS is replaced by the
reference implementation (https://netlib.org/blas), `std::sort` by a sorted permutation. -/

namespace Libube.Reduce

open View Transpose Rows

/-- `?asum` of BLAS (called at lube/clapack.cpp:164-174): the sum of the absolute values from element `i` on
    for `n` more. -/
def asumLoop [Ring α] [LinearOrder α] (src : List α) (p : Int) (i : Nat) : Nat → α → Outcome α
  | 0, acc => .ok acc
  | n + 1, acc => do
    let x ← load src (p + i)
    asumLoop src p (i + 1) n (acc + |x|)

/-- `ASum::vector` (lube/math.cpp:849-866). -/
def asumVector [Ring α] [LinearOrder α] (k : Kind) (a out : Arr α) (offI offO : Int) (dst : List α) : Outcome (List α) := do
  let size ← shape a (-1)
  let pi ← offset a
  let po ← offset out
  match k with
  | .float | .double => do
    let x ← asumLoop a.data (pi + offI) 0 size.toNat 0
    store dst (po + offO) x
  | _ => .thrown (.error "ASum::vector: Unknown type")

/-- `ASum::alloc` (lube/math.cpp:786-821): the result for one dimension is a number, which is an array of one
    element here.  Types other than floating point leave it nil, which is an empty array here; `vector` throws for them. -/
def asumAlloc [Zero α] (k : Kind) (junk : List α) (a : Arr α) : Outcome (Arr α) :=
  match k with
  | .float | .double | .cfloat | .cdouble =>
    if dim a > 1 then do
      let s ← shapeLoop a 0 (dim a)
      let s ← ipSet s (s.length - 1) 1
      newView s junk
    else .ok ⟨[0], none⟩
  | _ => .ok ⟨[], none⟩

/-- `ASum::scalar` of an array of `cdouble` (lube/math.cpp:840-842): its type is that of a number (76-82).  The
    result is accessed as `cdouble`, but it is the number 0.0, whose storage is taken for a pointer, or an array of
    `double` (786-807). -/
def asumFirst (a : Arr α) : Outcome (List α) :=
  if dim a > 1 then .ub .typePun else .ub .nullDeref

/-- `ASum::scalar` of an array (lube/math.cpp:824-846). -/
def asumScalar [Ring α] [LinearOrder α] (k : Kind) (a out : Arr α) : Outcome (List α) :=
  if k = .cdouble then asumFirst a else broadcast 1 (asumVector k a out) a out

/-- `asum(x)` of an array (lube/func.cpp:32-37, 96-131, lube/math.cpp:786-866). -/
def asum [Ring α] [LinearOrder α] (k : Kind) (junk : List α) (a : Arr α) : Outcome (Arr α) := do
  let out ← asumAlloc k junk a
  let data ← asumScalar k a out
  .ok ⟨data, out.ip⟩

/-- The loop of `i?amax` of BLAS (called at lube/clapack.cpp:140-162): from element `i` on for `n` more; the
    largest so far is `best` at position `at`.  `mag` is the absolute value for real numbers and the sum of the absolute
    values of the parts for complex ones. -/
def iamaxLoop [LinearOrder β] (mag : α → β) (src : List α) (p : Int) (i : Nat) : Nat → β → Nat → Outcome Nat
  | 0, _, pos => .ok pos
  | n + 1, best, pos => do
    let x ← load src (p + i)
    if best < mag x then iamaxLoop mag src p (i + 1) n (mag x) i
    else iamaxLoop mag src p (i + 1) n best pos

/-- `blas::iamax` (lube/clapack.cpp:140-162): BLAS counts from 1 and returns 0 for no elements. -/
def iamaxRow [LinearOrder β] (mag : α → β) (n : Nat) (src : List α) (p : Int) : Outcome Int :=
  match n with
  | 0 => .ok (-1)
  | n + 1 => do
    let x ← load src p
    let r ← iamaxLoop mag src p 1 n (mag x) 0
    .ok r

/-- `IAMax::vector` (lube/math.cpp:957-987).  The output is new storage, so it is not the input.  An array of
    `cdouble` has the type `cdouble` for the assertion (961, 76-82). -/
def iamaxVector [LinearOrder β] (mag : α → β) (k : Kind) (a : Arr α) (out : Arr Int) (offI offO : Int) (dst : List Int) : Outcome (List Int) :=
  if k = .cdouble then .abort
  else do
  let size ← shape a (-1)
  let pi ← offset a
  let po ← offset out
  match k with
  | .float | .double | .cfloat => do
    let x ← iamaxRow mag size.toNat a.data (pi + offI)
    store dst (po + offO) x
  | _ => .thrown (.error "IAMax::vector: Unknown type")

/-- `UnaryFunctor::broadcast` (lube/func.cpp:113-130) for an output of another type, with `mDim` 1. -/
def broadcastTo (f : Int → Int → List β → Outcome (List β)) (a : Arr α) (out : Arr β) : Outcome (List β) :=
  if 1 > dim a then .thrown (.error "UnaryFunctor::broadcast: dimension too large")
  else do
    let stepI ← blockStep a 1
    let stepO ← blockStep out 1
    let s ← size a
    if stepI = 0 then .ub .divZero
    else blocks f stepI stepO 0 (s.tdiv stepI).toNat out.data

/-- `IAMax::alloc` (lube/math.cpp:939-954); the number that is the result for one dimension is an array of one element here. -/
def iamaxAlloc (junk : List Int) (a : Arr α) : Outcome (Arr Int) :=
  if dim a > 1 then do
    let s ← shapeLoop a 0 (dim a)
    let s ← ipSet s (s.length - 1) 1
    newView s junk
  else .ok ⟨[0], none⟩

/-- `iamax(x)` of an array (lube/func.cpp:32-37, 96-131, lube/math.cpp:939-987). -/
def iamax [LinearOrder β] (mag : α → β) (k : Kind) (junk : List Int) (a : Arr α) : Outcome (Arr Int) := do
  let out ← iamaxAlloc junk a
  let data ← broadcastTo (iamaxVector mag k a out) a out
  .ok ⟨data, out.ip⟩

/-- `iamax(x)` of a number: `scalar` is not overridden, and `vector` asserts that it has an array
    (lube/func.cpp:54-57, 124-130, lube/math.cpp:961; the size and the dimension are 1, lube/var.cpp:608-615, 1433-1439). -/
def iamaxNum (_ : α) : Outcome Int := .abort

/-- `std::sort(p, p + n)` (lube/math.cpp:1199-1211). -/
def sortRange [LinearOrder α] (d : List α) (p : Int) (n : Nat) : Outcome (List α) :=
  if p < 0 ∨ p + n > d.length then .ub .outOfBounds
  else .ok (d.take p.toNat ++ ((d.drop p.toNat).take n).insertionSort (· ≤ ·) ++ d.drop (p.toNat + n))

/-- `Sort::vector` (lube/math.cpp:1191-1225) in place, called through `UnaryFunctor::vector`. -/
def sortVector [LinearOrder α] (k : Kind) (a : Arr α) (offI offO : Int) (dst : List α) : Outcome (List α) :=
  viewsOf { a with data := dst } { a with data := dst } (fun iv _ => do
    let size ← shape iv (-1)
    let p ← offset iv
    match k with
    | .char | .int | .long | .float | .double => sortRange dst p size.toNat
    | _ => .thrown (.error "Sort::vector: Unknown type")) offI offO

/-- `sort(x, x)` of an array (lube/func.cpp:44-48, 54-57, 96-131). -/
def sort [LinearOrder α] (k : Kind) (a : Arr α) : Outcome (Arr α) := do
  let data ← broadcast 1 (sortVector k a) a a
  .ok { a with data := data }

/-- `sort(x)` of an array (lube/func.cpp:32-37): the output is a copy, so it is not the input
    (lube/math.cpp:1193-1194). -/
def sortNew (junk : List α) (a : Arr α) : Outcome (Arr α) := do
  let out : Arr α := { a with data := junk }
  let data ← broadcast 1 (fun offI offO _ => viewsOf a out (fun _ _ => .thrown (.error "Sort::vector: in place only for the moment")) offI offO) a out
  .ok { a with data := data }

/-- The loop of `Concatenate::alloc` over the dimensions of one operand (lube/math.cpp:1235-1237), from `d` on for `n`
    more. -/
def sameLead (a0 a : Arr α) (d : Nat) : Nat → Outcome Unit
  | 0 => .ok ()
  | n + 1 => do
    let x ← shape a d
    let y ← shape a0 d
    if x ≠ y then .thrown (.error "Concatenate: dimensions differ")
    else sameLead a0 a (d + 1) n

/-- The loop of `Concatenate::alloc` over the operands after the first (lube/math.cpp:1233-1240). -/
def widths (a0 : Arr α) : List (Arr α) → Int → Outcome Int
  | [], sum => .ok sum
  | a :: as, sum => do
    sameLead a0 a 0 (dim a0 - 1)
    let w ← shape a (-1)
    let sum ← cint (sum + w)
    widths a0 as sum

/-- `Concatenate::alloc` (lube/math.cpp:1228-1247); element 0 of the first operand is read (1245). -/
def concatAlloc (junk : List α) (a0 : Arr α) (as : List (Arr α)) : Outcome (Arr α) := do
  let w ← shape a0 (-1)
  let sum ← widths a0 as w
  let s ← shapeLoop a0 0 (dim a0)
  let s ← ipSet s (dim a0 - 1) sum
  let o ← offset a0
  let _ ← load a0.data o
  newView s junk

/-- `blas::copy` (lube/clapack.cpp:51-73) from element `i` on for `n` more. -/
def copyLoop (src : List α) (p q : Int) (i : Nat) : Nat → List α → Outcome (List α)
  | 0, dst => .ok dst
  | n + 1, dst => do
    let x ← load src (p + i)
    let dst ← store dst (q + i) x
    copyLoop src p q (i + 1) n dst

/-- The loop of `Concatenate::vector` over views of the operands (lube/math.cpp:1256-1264 and likewise); `q` is where
    the output starts. -/
def copyAll (q : Int) : List (Arr α) → Int → List α → Outcome (List α)
  | [], _, dst => .ok dst
  | v :: vs, sum, dst => do
    let s ← shape v (-1)
    let p ← offset v
    let dst ← copyLoop v.data p (q + sum) 0 s.toNat dst
    let sum ← cint (sum + s)
    copyAll q vs sum dst

/-- How far one operation is from the next (lube/func.cpp:393, 401). -/
def rowStep (cdim : Nat) (a : Arr α) : Outcome Int := if cdim > 0 then stride a ((cdim : Int) - 1) else .ok 0

/-- One operand of operation `i` (lube/func.cpp:400-405): the view of a row, or element `i` of an operand with one dimension less
    than the output (404; a number, which is an array of one element here). -/
def rowView (cdim : Nat) (i : Nat) (a : Arr α) : Outcome (Arr α) := do
  let step ← rowStep cdim a
  if dim a = cdim then do
    let o ← offset a
    let x ← load a.data (o + i)
    .ok ⟨[x], none⟩
  else do
    let off ← cint (step * i)
    subview a ((dim a : Int) - cdim) off

/-- The operands of operation `i` (lube/func.cpp:397-406). -/
def rowViews (cdim : Nat) (i : Nat) : List (Arr α) → Outcome (List (Arr α))
  | [] => .ok []
  | a :: as => do
    let v ← rowView cdim i a
    let vs ← rowViews cdim i as
    .ok (v :: vs)

/-- `Concatenate::vector` (lube/math.cpp:1250-1302) with views `vs` of the operands, to the row of the output at `off`
    (lube/func.cpp:407-408).  The output is new storage, so the assertions hold. -/
def concatVector (k : Kind) (out : Arr α) (cdim : Nat) (off : Int) (vs : List (Arr α)) (dst : List α) : Outcome (List α) := do
  let ov ← subview { out with data := dst } ((dim out : Int) - cdim) off
  let q ← offset ov
  match k with
  | .float | .double | .cfloat | .cdouble => copyAll q vs 0 dst
  | _ => .thrown (.error "Concatenate::vector: Unknown type")

/-- The loop of `NaryFunctor::broadcast` (lube/func.cpp:395-409) from operation `i` on for `n` more. -/
def concatRows (k : Kind) (out : Arr α) (cdim : Nat) (stepO : Int) (as : List (Arr α)) (i : Nat) : Nat → List α → Outcome (List α)
  | 0, dst => .ok dst
  | n + 1, dst => do
    let vs ← rowViews cdim i as
    let off ← cint (stepO * i)
    let dst ← concatVector k out cdim off vs dst
    concatRows k out cdim stepO as (i + 1) n dst

/-- The number of operations (lube/func.cpp:394). -/
def concatOps (cdim : Nat) (stepO size : Int) : Outcome Nat :=
  if cdim > 0 then if stepO = 0 then .ub .divZero else .ok (size.tdiv stepO).toNat else .ok 1

/-- `concatenate({a0, …})` (lube/func.cpp:333-338, 377-410); the types of the elements come with the operands. -/
def concatenate (junk : List α) (k : Kind) (a0 : Arr α) (as : List (Kind × Arr α)) : Outcome (Arr α) := do
  let out ← concatAlloc junk a0 (as.map (·.2))
  if as.any (fun x => x.1 ≠ k) then .thrown (.error "var::broadcast: types must match (for now)")
  else do
    let stepO ← rowStep (dim out - 1) out
    let s ← size out
    let n ← concatOps (dim out - 1) stepO s
    let data ← concatRows k out (dim out - 1) stepO (a0 :: as.map (·.2)) 0 n out.data
    .ok ⟨data, out.ip⟩

end Libube.Reduce

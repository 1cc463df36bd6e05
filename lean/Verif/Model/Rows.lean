import Verif.Model.Transpose
import Mathlib.Algebra.Ring.Defs

/-! # Functors along the last dimension: poly, sum (lube/math.cpp, lube/func.cpp)

Arithmetic is that of a ring here, not floating point, except that sums need only an addition and a zero (Model/FloatSum). -/

namespace Libube.Rows

open View Transpose

/-- The inner loop of `polyt` (lube/math.cpp:1159-1164) for `j .. j+n-1`; the root is at `si`, the
    coefficients from `di` on.  `iData` and `oData` point into different arrays. -/
def polyInner [Ring α] (src : List α) (si di : Int) (j : Nat) : Nat → α → List α → Outcome (List α)
  | 0, _, dst => .ok dst
  | n + 1, tmp0, dst => do
    let tmp1 ← load dst (di + (j + 1 : Nat))
    let r ← load src si
    let dst ← store dst (di + (j + 1 : Nat)) (tmp1 - r * tmp0)
    polyInner src si di (j + 1) n tmp1 dst

/-- The outer loop of `polyt` (lube/math.cpp:1155-1165) for `i .. i+n-1`. -/
def polyOuter [Ring α] (src : List α) (si di : Int) (i : Nat) : Nat → List α → Outcome (List α)
  | 0, dst => .ok dst
  | n + 1, dst => do
    let dst ← store dst (di + (i + 1 : Nat)) 0
    let tmp0 ← load dst di
    let dst ← polyInner src (si + i) di 0 (i + 1) tmp0 dst
    polyOuter src si di (i + 1) n dst

/-- `polyt` (lube/math.cpp:1151-1166). -/
def polyt [Ring α] (order : Nat) (src : List α) (si : Int) (dst : List α) (di : Int) : Outcome (List α) := do
  let dst ← store dst di 1
  polyOuter src si di 0 order dst

/-- `UnaryFunctor::vector` with offsets (lube/func.cpp:68-76) for `mDim` 1: `g` gets the views of
    input and output. -/
def viewsOf (a out : Arr α) (g : Arr α → Arr α → Outcome β) (offI offO : Int) : Outcome β := do
  let cdim : Int := dim a - 1
  let iv ← subview a (dim a - cdim) offI
  let ov ← subview out (dim out - cdim) offO
  g iv ov

/-- `Poly::vector` (lube/math.cpp:1168-1188) called through `UnaryFunctor::vector`; the output is a
    new array of the type `Poly::alloc` made, which for `cdouble` is `cfloat` (1144). -/
def polyVector [Ring α] (k : Kind) (a out : Arr α) (offI offO : Int) (dst : List α) : Outcome (List α) :=
  viewsOf a { out with data := dst } (fun iv ov => do
    let order ← shape iv (-1)
    let pi ← offset iv
    let po ← offset ov
    match k with
    | .float | .double | .cfloat => polyt order.toNat iv.data pi dst po
    | .cdouble => .ub .typePun
    | _ => .thrown (.error "Poly::vector: Unknown type")) offI offO

/-- `poly(x)` (lube/func.cpp:32-37, 54-57, 96-131 with `Poly::alloc`, lube/math.cpp:1127-1148);
    `junk` is the contents of the new array, of the size `Poly::alloc` computes.  For other types
    `Poly::alloc` returns nil, of which no view can be made (lube/var.cpp:1371-1372). -/
def poly [Ring α] (k : Kind) (junk : List α) (a : Arr α) : Outcome (Arr α) := do
  let s ← shapeLoop a 0 (dim a)
  let x ← ipGet s (s.length - 1)
  let x ← cint (x + 1)
  let s ← ipSet s (s.length - 1) x
  match k with
  | .float | .double | .cfloat | .cdouble => do
    let out ← newView s junk
    let data ← broadcast 1 (polyVector k a out) a out
    .ok ⟨data, out.ip⟩
  | _ => do
    let sa ← size a
    let st ← blockStep a 1
    if st = 0 then .ub .divZero
    else if (sa.tdiv st).toNat = 0 then .ok ⟨[], none⟩
    else .thrown (.error "var::view: Input not an array")

/-- `sumArray` (lube/math.cpp:901-908) from element `i` on for `n` more, with `acc` so far. -/
def sumLoop [Zero α] [Add α] (src : List α) (p : Int) (i : Nat) : Nat → α → Outcome α
  | 0, acc => .ok acc
  | n + 1, acc => do
    let x ← load src (p + i)
    sumLoop src p (i + 1) n (acc + x)

/-- `Sum::vector` (lube/math.cpp:911-936); it is not called for `cdouble`. -/
def sumVector [Zero α] [Add α] (k : Kind) (a out : Arr α) (offI offO : Int) (dst : List α) : Outcome (List α) := do
  let size ← shape a (-1)
  let pi ← offset a
  let po ← offset out
  match k with
  | .float | .double | .cfloat => do
    let x ← sumLoop a.data (pi + offI) 0 size.toNat 0
    store dst (po + offO) x
  | _ => .thrown (.error "Sum::vector: Unknown type")

/-- `scalarAlloc` (lube/math.cpp:111-126): a new array with last dimension 1, or a single number,
    which is an array of one element here.  Element 0 of the input is read. -/
def scalarAlloc (junk : List α) (a : Arr α) : Outcome (Arr α) := do
  let o ← offset a
  let x0 ← load a.data o
  if dim a > 1 then do
    let s ← shapeLoop a 0 (dim a)
    let s ← ipSet s (s.length - 1) 1
    newView s junk
  else .ok ⟨[x0], none⟩

/-- `Sum::scalar` of an array of `cdouble` (lube/math.cpp:892-894): its type is that of a number (76-82), so
    the first element is taken (`get`, lube/var.cpp:52-60). -/
def sumFirst (a out : Arr α) : Outcome (List α) := do
  let o ← offset a
  let x ← load a.data o
  let po ← offset out
  store out.data po x

/-- `Sum::scalar` of an array (lube/math.cpp:876-898). -/
def sumScalar [Zero α] [Add α] (k : Kind) (a out : Arr α) : Outcome (List α) :=
  if k = .cdouble then sumFirst a out else broadcast 1 (sumVector k a out) a out

/-- `sum(x)` of an array (lube/func.cpp:32-37, 96-131, lube/math.cpp:869-898). -/
def sum [Zero α] [Add α] (k : Kind) (junk : List α) (a : Arr α) : Outcome (Arr α) := do
  let out ← scalarAlloc junk a
  let data ← sumScalar k a out
  .ok ⟨data, out.ip⟩

end Libube.Rows

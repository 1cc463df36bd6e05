import Verif.Model.MemLit

/-! # Functions applied to every element (lube/func.cpp, lube/math.cpp)

`UnaryFunctor` with `mDim` 0: the functions of the C library, as `sin` or `floor`.  Views are not
modelled. -/

namespace Libube.Mem

/-- A function made by `CMATH_UNARY_FUNCTOR` (lube/math.cpp:129-146) or, if `cplx`,
    `COMPLEX_UNARY_FUNCTOR` (148-171): `f k x` is the type and value of `std::f(x)` for `x` of type
    `k`. -/
structure Fn (α : Type) where
  cplx : Bool
  f : Kind → α → Kind × α

/-- The cases of the `switch` other than `TYPE_ARRAY` (lube/math.cpp:137-142, 156-167). -/
def Fn.takes (F : Fn α) (k : Kind) : Bool :=
  match k with
  | .float | .double => true
  | .cfloat | .cdouble => F.cplx
  | _ => false

/-- `var::atype()` (lube/var.cpp:634-643). -/
def atypeV (v : V α) : M α Kind := do
  match ← derefV v with
  | .nil => throwE (.error "var::atype(): Undefined")
  | .num k _ => pure k
  | .bad k => pure k
  | .arr a => do
    let o ← obj a
    pure o.kind
  | .ref a _ => do
    let o ← obj a
    pure o.kind

/-- `type(var)` (lube/math.cpp:76-82): an array of `cdouble` counts as a number.  The copy made for the
    call is left out. -/
def mathType (v : V α) : M α (Option Kind) := do
  let t ← typeV v
  let k ← atypeV v
  pure (if k = .cdouble then some .cdouble else t)

/-- The loop in `UnaryFunctor::broadcast` (lube/func.cpp:105-109) from element `i`, `n` elements to go.
    `sc` is `scalar`.  The input `v` is the copy that `broadcast` has; its size is read once, not
    before every turn. -/
def broadcast [Env α] (sc : V α → Loc → M α Unit) (v : V α) (lo : Loc) : Nat → Nat → M α Unit
  | _, 0 => pure ()
  | i, n + 1 => do
    let o ← readLoc lo
    let r ← at' o i
    withVar r fun lr => do
      let t ← at' v i
      withVar t fun _ => sc t lr
    broadcast sc v lo (i + 1) n

/-- `F::scalar` (lube/math.cpp:129-171) with `UnaryFunctor::broadcast` (lube/func.cpp:96-110): `v` is the
    input, `lo` the output.  The first number bounds the depth of the recursion. -/
def scalar [Env α] (F : Fn α) : Nat → V α → Loc → M α Unit
  | 0, _, _ => fun _ => .diverge
  | d + 1, v, lo => do
    match ← mathType v with
    | none => do
      attachV v
      withVar v fun _ => do
        let n ← sizeV v
        broadcast (scalar F d) v lo 0 n
    | some k =>
      if F.takes k then do
        let x ← getV k v
        let r ← newNum (F.f k x).1 (F.f k x).2
        assign lo r
      else throwE (.error "#F##::scalar: Unknown type")

/-- `UnaryFunctor::operator()(iVar, oVar)` (lube/func.cpp:44-48) for two variables. -/
def applyTo [Env α] (F : Fn α) (d : Nat) (n m : Nat) : M α (V α) := do
  let v ← readLoc (.slot n)
  scalar F d v (.slot m)
  copyV (← readLoc (.slot m))

/-- `UnaryFunctor::operator()(iVar)` (lube/func.cpp:32-37) with `alloc` (20-25) for variable `n`; the
    result is a new variable.  A copy only allocates: numbers are uninitialised, vars are nil. -/
def applyNew [Env α] (F : Fn α) (d : Nat) (n : Nat) : M α (V α) := do
  let v ← readLoc (.slot n)
  let r ← match ← heapOf v with
    | none => copyV v
    | some a => do
      let o ← obj a
      let b ← newHeap o.size (some o.kind)
      pure (.arr b)
  withVar .nil fun lr => do
    assign lr r
    scalar F d v lr
    copyV (← readLoc lr)

end Libube.Mem

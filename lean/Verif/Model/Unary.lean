import Verif.Model.Arith

/-! # Functions of arrays and views (lube/math.cpp, lube/math.h, lube/func.cpp)

As in Model/Arith: arrays lie in a memory of numbered heaps, what the functions do to a number is a parameter.  The values in memory are
numbers of any type; `conv k` is the conversion to type `k` when a number is assigned to an element (lube/var.cpp:286-308), where it is defined. -/

namespace Libube.Unary

open View Transpose Arith

/-- A function made by `CMATH_UNARY_FUNCTOR` (lube/math.cpp:129-146) or, if `cplx`, `COMPLEX_UNARY_FUNCTOR` (148-171); `real` if it is declared
    by `REAL_UNARY_FUNCTOR_DECL` (lube/math.h:47-52, 73-77), so that its value is real.  `f k x` is `std::f(x)` for `x` of type `k`. -/
structure Fn (α : Type) where
  cplx : Bool
  real : Bool
  f : Num → α → α

/-- The cases of the `switch` other than `TYPE_ARRAY` (lube/math.cpp:137-142, 156-167). -/
def Fn.takes (F : Fn α) : Num → Bool
  | .float | .double => true
  | .cfloat | .cdouble => F.cplx
  | _ => false

/-- What the output variable is afterwards (lube/var.h:202-216). -/
inductive Out (α : Type) where
  | nil
  | num (x : α)
  | arr (r : Ref)
deriving DecidableEq

/-- Case 1 of `UnaryFunctor::broadcast` (lube/func.cpp:100-111) for elements `i .. i+n-1` of a type that the function takes. -/
def loop (g : α → α) (ha : Nat) (pa : Int) (ho : Nat) (po : Int) (i : Nat) : Nat → Mem α → Outcome (Mem α)
  | 0, m => .ok m
  | n + 1, m => do
    let x ← loadAt m ha (pa + i)
    let m ← storeAt m ho (po + i) (g x)
    loop g ha pa ho po (i + 1) n m

/-- `F::scalar` of an array that is not of `cdouble`, with an array as output (lube/math.cpp:129-171, lube/func.cpp:96-111). -/
def onArray (conv : Num → α → α) (F : Fn α) (a o : Ref) (m : Mem α) : Outcome (Mem α) := do
  let A ← arrOf m a
  let O ← arrOf m o
  let pa ← offset A
  let po ← offset O
  let n ← size A
  if F.takes a.kind then loop (fun x => conv o.kind (F.f a.kind x)) a.heap pa o.heap po 0 n.toNat m
  else if n > 0 then .thrown (.error "#F##::scalar: Unknown type")
  else .ok m

/-- The same with nil as output (lube/func.cpp:105-110, lube/var.cpp:808-813). -/
def onNil (a : Ref) (m : Mem α) : Outcome (Out α × Mem α) := do
  let A ← arrOf m a
  let n ← size A
  if n > 0 then .thrown (.error "var::at(): uninitialised") else .ok (.nil, m)

/-- `F::scalar` of an array of `cdouble`, which `type()` takes for a number (lube/math.cpp:76-82, 165-167): the output variable becomes the value
    for the first element, a number or an array of one `cdouble` (lube/var.cpp:409-414, 276-339). -/
def onFirst (F : Fn α) (a : Ref) (o : Option Ref) (m : Mem α) : Outcome (Out α × Mem α) :=
  if F.takes .cdouble then do
    let A ← arrOf m a
    let pa ← offset A
    let x ← loadAt m a.heap pa
    let y := F.f .cdouble x
    if F.real then .ok (.num y, m)
    else do
      let b : Ref := ⟨.cdouble, m.length, none⟩
      let m := m ++ [[y]]
      match o with
      | some ⟨k, h, some ip⟩ => do
        let (r, m) ← assignView ⟨k, h, some ip⟩ b m
        .ok (.arr r, m)
      | _ => .ok (.arr b, m)
  else .thrown (.error "#F##::scalar: Unknown type")

/-- `F::scalar` of an array (lube/math.cpp:129-171); no output is nil. -/
def scalar (conv : Num → α → α) (F : Fn α) (a : Ref) (o : Option Ref) (m : Mem α) : Outcome (Out α × Mem α) :=
  if a.kind = .cdouble then onFirst F a o m
  else match o with
    | none => onNil a m
    | some o => do
      let m ← onArray conv F a o m
      .ok (.arr o, m)

/-- `RealUnaryFunctor::alloc` (lube/math.cpp:88-105); `junk` is what the new array holds, of the size that the shape has. -/
def allocReal (a : Ref) (junk : List α) (m : Mem α) : Outcome (Option Ref × Mem α) := do
  let A ← arrOf m a
  let s ← shapeLoop A 0 (dim A)
  match a.kind with
  | .float | .cfloat => do
    let v ← newView s junk
    .ok (some ⟨.float, m.length, v.ip⟩, m ++ [v.data])
  | .double | .cdouble => do
    let v ← newView s junk
    .ok (some ⟨.double, m.length, v.ip⟩, m ++ [v.data])
  | _ => .ok (none, m)

/-- `alloc` of the function: that, or `UnaryFunctor::alloc` (lube/func.cpp:20-25), a copy of which `junk` is what it holds. -/
def alloc (F : Fn α) (a : Ref) (junk : List α) (m : Mem α) : Outcome (Option Ref × Mem α) :=
  if F.real then allocReal a junk m
  else .ok (some (allocLike a junk m).1, (allocLike a junk m).2)

/-- `f(x)` (lube/func.cpp:32-37): the result and the memory. -/
def call (conv : Num → α → α) (F : Fn α) (a : Ref) (junk : List α) (m : Mem α) : Outcome (Out α × Mem α) := do
  let (o, m) ← alloc F a junk m
  scalar conv F a o m

/-- `f(x, y)` (lube/func.cpp:44-48), also `x.f()` (lube/var.h:155-166), where `y` is `x`: what `y` is afterwards, and the memory. -/
def callTo (conv : Num → α → α) (F : Fn α) (a o : Ref) (m : Mem α) : Outcome (Out α × Mem α) := scalar conv F a (some o) m

end Libube.Unary

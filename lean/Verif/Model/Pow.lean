import Verif.Model.Arith

/-! # `pow` of arrays (lube/math.cpp, lube/var.h)

As in Model/Arith.  `pow` writes by assignment to the output, so where `type()` takes an array for a number (an array of
`cdouble`) the output variable becomes the new number, which is an array of one element. -/

namespace Libube.Pow

open View Transpose Arith

/-- Case 1 of `ArithmeticFunctor::broadcast` (lube/func.cpp:262-274) with `Pow::scalar` (lube/math.cpp:189-211): elements
    of other types than these three throw.  The output has the element type of the input. -/
def powOne (f : α → α → α) (a : Ref) (r : Rhs α) (o : Ref) (m : Mem α) : Outcome (Mem α) := do
  let A ← arrOf m a
  let O ← arrOf m o
  let pa ← offset A
  let po ← offset O
  let n ← size A
  match a.kind with
  | .float | .double | .cfloat => scalarLoop f a.heap pa r o.heap po 0 n.toNat m
  | _ => if n > 0 then .thrown (.error "Pow::scalar: Unknown type") else .ok m

/-- `ArithmeticFunctor::broadcast` (lube/func.cpp:257-299) for `pow`, which has no `vector()` (lube/math.h:47-54, 72). -/
def powBroadcast (f : α → α → α) (a : Ref) (r : Rhs α) (o : Ref) (m : Mem α) : Outcome (Mem α) :=
  match r with
  | .num _ | .elem _ _ => powOne f a r o m
  | .arr b => do
    let A ← arrOf m a
    let B ← arrOf m b
    let O ← arrOf m o
    let sb ← size B
    if dim B = 1 ∧ sb = 1 then powOne f a r o m
    else if dim B > dim A then .thrown (.error "var::broadcast: input dimension too large")
    else if a.kind ≠ b.kind then .thrown (.error "var::broadcast: types must match (for now)")
    else do
      let stepA ← blockStep A (dim B)
      let stepO ← blockStep O (dim B)
      let sa ← size A
      if stepA = 0 then .ub .divZero
      else blockLoop (fun _ _ _ => vectorNone (dim A) (dim B)) stepA stepO 0 (sa.tdiv stepA).toNat m

/-- `Pow::scalar` for an array of `cdouble` (lube/math.cpp:205-207): a new array of one element (lube/var.cpp:409-414)
    is assigned to the output variable, which if it is a view of one element is written to. -/
def powFirst (f : α → α → α) (re : α → α) (a : Ref) (r : Rhs α) (o : Ref) (m : Mem α) : Outcome (Ref × Mem α) := do
  let A ← arrOf m a
  let pa ← offset A
  let x ← loadAt m a.heap pa
  let y ← rhsFirst re m r
  let b : Ref := ⟨.cdouble, m.length, none⟩
  let m := m ++ [[f x y]]
  match o.ip with
  | none => .ok (b, m)
  | some _ => assignView o b m

/-- `Pow::scalar` for an array (lube/math.cpp:189-211): the output variable afterwards, and the memory. -/
def scalar (f : α → α → α) (re : α → α) (a : Ref) (r : Rhs α) (o : Ref) (m : Mem α) : Outcome (Ref × Mem α) :=
  if a.kind = .cdouble then powFirst f re a r o m
  else do
    let m ← powBroadcast f a r o m
    .ok (o, m)

/-- `x.pow(y)` (lube/var.h:161): the variable `x` afterwards, and the memory. -/
def pow (f : α → α → α) (re : α → α) (a : Ref) (r : Rhs α) (m : Mem α) : Outcome (Ref × Mem α) :=
  scalar f re a r a m

/-- `pow(x, y)` (lube/func.cpp:134-153): the result and the memory; `junk` as for `binOp`. -/
def powNew (f : α → α → α) (re : α → α) (a : Ref) (r : Rhs α) (junk : List α) (m : Mem α) : Outcome (Ref × Mem α) := do
  let (o, m) := allocLike a junk m
  scalar f re a r o m

end Libube.Pow

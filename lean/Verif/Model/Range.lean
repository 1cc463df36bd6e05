import Verif.Model.Outcome

/-! # Ranges of integers (lube/var.cpp:857-898)

Characters, `int` and `long`; floating point is in `Model/FloatRange`. -/

namespace Libube.Range

/-- The integer types of a var, in the order of their type codes (lube/var.h:33-35). -/
inductive Ty where
  | char | int | long
deriving DecidableEq, Repr

/-- The type codes (lube/var.h:33-35). -/
def Ty.code : Ty → Nat
  | .char => 1
  | .int => 2
  | .long => 3

/-- Number of bits (x86-64: `char` is signed). -/
def Ty.bits : Ty → Nat
  | .char => 8
  | .int => 32
  | .long => 64

/-- A number with its type (lube/var.cpp:368-387). -/
structure Num where
  ty : Ty
  v : Int
deriving DecidableEq, Repr

/-- Whether a value fits its type (limits of the types; no code in /repo corresponds). -/
def inRange (t : Ty) (v : Int) : Bool := -2 ^ (t.bits - 1) ≤ v && v < 2 ^ (t.bits - 1)

/-- `cast<T>()` between integers (lube/var.cpp:646-700): the value modulo the width. -/
def cast (t : Ty) (x : Num) : Int := Int.bmod x.v (2 ^ t.bits)

/-- The result of an operation in type `t` (lube/math.cpp:336-342, 415-421): characters are
    computed as `int` and converted back, which wraps; otherwise overflow is undefined. -/
def arith (t : Ty) (v : Int) : Outcome Num :=
  match t with
  | .char => .ok ⟨.char, Int.bmod v (2 ^ 8)⟩
  | _ => if inRange t v then .ok ⟨t, v⟩ else .ub .overflow

/-- `Add::scalar` for integers (lube/math.cpp:330-343); also `+=` (lube/var.h:105). -/
def add (a b : Num) : Outcome Num := arith a.ty (a.v + cast a.ty b)

/-- `Sub::scalar` for integers (lube/math.cpp:409-422). -/
def sub (a b : Num) : Outcome Num := arith a.ty (a.v - cast a.ty b)

/-- `operator <` for integers (lube/var.cpp:546-559): different types compare by type code. -/
def lt (a b : Num) : Bool := if a.ty = b.ty then a.v < b.v else a.ty.code < b.ty.code

/-- How many elements an array can have: one more and the capacity computed for it is negative,
    so that no memory is obtained (lube/heap.cpp:189-205, 244-249 and `allocSize_overflows`);
    strings have a terminator (232-233). -/
def limit : Ty → Nat
  | .char => 2 ^ 30 - 1
  | _ => 2 ^ 30

/-- The loops (lube/var.cpp:860-864, 886-890) with room for `n` more elements; writing beyond is out
    of bounds. -/
def loop (cond : Num → Bool) (step : Num) : Nat → Num → List Num → Outcome (List Num)
  | 0, lo, r => if cond lo then .ub .outOfBounds else .ok r
  | n + 1, lo, r =>
    if cond lo then do
      let lo' ← add lo step
      loop cond step n lo' (r ++ [lo])
    else .ok r

/-- What a var is that was nil before pushing numbers onto it (lube/var.cpp:1066-1089): nil, the
    number itself, or an array. -/
inductive Res where
  | nil
  | number (x : Num)
  | array (xs : List Num)
deriving DecidableEq, Repr

/-- Pushing all of a list onto nil (lube/var.cpp:1066-1089). -/
def pushed : List Num → Res
  | [] => .nil
  | [x] => .number x
  | xs => .array xs

/-- `irange(lo, hi, step)` (lube/var.cpp:857-866). -/
def irange (lo hi step : Num) : Outcome Res := do
  let r ← loop (fun x => lt x hi) step (limit lo.ty) lo []
  .ok (pushed r)

/-- `irange(hi)` (lube/var.cpp:869-872). -/
def irange1 (hi : Num) : Outcome Res := do
  let lo ← sub hi hi
  irange lo hi ⟨.int, 1⟩

/-- `range(lo, hi, step)` (lube/var.cpp:883-892); `<=` is `!(hi < lo)` (lube/var.h:102-103). -/
def range (lo hi step : Num) : Outcome Res := do
  let r ← loop (fun x => !lt hi x) step (limit lo.ty) lo []
  .ok (pushed r)

/-- `range(hi)` (lube/var.cpp:895-898). -/
def range1 (hi : Num) : Outcome Res := do
  let z ← sub hi hi
  let lo ← add z ⟨.int, 1⟩
  range lo hi ⟨.int, 1⟩

end Libube.Range

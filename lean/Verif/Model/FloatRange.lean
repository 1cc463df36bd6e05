import Verif.Model.Range
import Verif.Model.Value

/-! # Ranges of floating point numbers (lube/var.cpp:857-898)

The same loops as in `Model/Range`, with `float` and `double` beside the integers, so that the bounds and
the step can be of different types.  A floating point number is what `Ieee.value` makes of its bits: a whole
number of units of the smallest positive number, with an infinity beyond all others and `none` for NaN; the
sign of a zero is lost.  Arithmetic is that of IEEE 754, rounding to nearest, ties to even.  Complex numbers
are left out. -/

namespace Libube.FloatRange

open Range (Ty)

/-- The floating point types of a var (lube/var.h:36-37). -/
inductive Fmt where
  | float | double
deriving DecidableEq, Repr

/-- The type codes (lube/var.h:36-37). -/
def Fmt.code : Fmt → Nat
  | .float => 4
  | .double => 5

/-- Bits of the fraction (`Ieee.val32` and `Ieee.val64`; lube/var.h:207-208). -/
def Fmt.frac : Fmt → Nat
  | .float => 23
  | .double => 52

/-- Bits of the exponent (`Ieee.val32` and `Ieee.val64`; lube/var.h:207-208). -/
def Fmt.ex : Fmt → Nat
  | .float => 8
  | .double => 11

/-- The number 1 in units of the smallest positive number is 2 to this (lube/var.h:207-208). -/
def Fmt.unit (f : Fmt) : Nat := f.frac + 2 ^ (f.ex - 1) - 2

/-- Infinity in units of the smallest positive number is 2 to this (lube/var.h:207-208). -/
def Fmt.top (f : Fmt) : Nat := f.frac + 2 ^ f.ex - 2

/-- A number with its type (lube/var.cpp:368-387). -/
inductive Num where
  | int (x : Range.Num)
  | flt (f : Fmt) (v : Option Int)
deriving DecidableEq, Repr

/-- The type code (lube/var.h:33-37). -/
def Num.code : Num → Nat
  | .int x => x.ty.code
  | .flt f _ => f.code

/-- The quotient rounded to nearest, ties to even: the rounding of IEEE 754 used by the processor for
    lube/math.cpp:344-349, 423-428; no code in /repo corresponds. -/
def rdiv (n d : Nat) : Nat :=
  if 2 * (n % d) < d ∨ (2 * (n % d) = d ∧ n / d % 2 = 0) then n / d else n / d + 1

/-- A magnitude in units of 2^-`k0` of the smallest positive number, rounded to the format; what is too
    large becomes infinity.  As for `rdiv`, no code in /repo corresponds. -/
def rndNat (f : Fmt) (k0 n : Nat) : Nat :=
  let k := max k0 (n.log2 - f.frac)
  min (rdiv n (2 ^ k) * 2 ^ (k - k0)) (2 ^ f.top)

/-- `rndNat` with a sign (no code in /repo corresponds). -/
def rnd (f : Fmt) (k0 : Nat) (x : Int) : Int :=
  if x < 0 then -(rndNat f k0 x.natAbs : Int) else rndNat f k0 x.natAbs

/-- The built-in `+` (lube/math.cpp:345, 348). -/
def addF (f : Fmt) : Option Int → Option Int → Option Int
  | some x, some y =>
    if x.natAbs = 2 ^ f.top then (if y = -x then none else some x)
    else if y.natAbs = 2 ^ f.top then some y
    else some (rnd f 0 (x + y))
  | _, _ => none

/-- The built-in unary `-`; `a - b` is `a + (-b)` (lube/math.cpp:424, 427). -/
def negF (x : Option Int) : Option Int := x.map fun v => -v

/-- `cast<float>()` and `cast<double>()` (lube/var.cpp:646-697) of a number. -/
def castF (f : Fmt) : Num → Option Int
  | .int x => some (rnd f 0 (x.v * 2 ^ f.unit))
  | .flt .float v =>
    match f with
    | .float => v
    | .double => v.map fun x => if x.natAbs = 2 ^ Fmt.float.top then x.sign * 2 ^ Fmt.double.top else x * 2 ^ (Fmt.double.unit - Fmt.float.unit)
  | .flt .double v =>
    match f with
    | .float => v.map (rnd .float (Fmt.double.unit - Fmt.float.unit))
    | .double => v

/-- `cast<T>()` for integers (lube/var.cpp:646-697): a floating point number is truncated, and what does not
    fit is undefined. -/
def castI (t : Ty) : Num → Outcome Int
  | .int x => .ok (Range.cast t x)
  | .flt _ none => .ub .overflow
  | .flt f (some v) => if Range.inRange t (v.tdiv (2 ^ f.unit)) then .ok (v.tdiv (2 ^ f.unit)) else .ub .overflow

/-- `Add::scalar` (lube/math.cpp:330-350); also `+=` (lube/var.h:105).  The type is that of the first. -/
def add : Num → Num → Outcome Num
  | .int a, b => do
    let c ← castI a.ty b
    let r ← Range.arith a.ty (a.v + c)
    .ok (.int r)
  | .flt f a, b => .ok (.flt f (addF f a (castF f b)))

/-- `Sub::scalar` (lube/math.cpp:409-429). -/
def sub : Num → Num → Outcome Num
  | .int a, b => do
    let c ← castI a.ty b
    let r ← Range.arith a.ty (a.v - c)
    .ok (.int r)
  | .flt f a, b => .ok (.flt f (addF f a (negF (castF f b))))

/-- `operator <` (lube/var.cpp:546-565): different types compare by type code. -/
def lt (a b : Num) : Bool :=
  if a.code = b.code then
    match a, b with
    | .int x, .int y => x.v < y.v
    | .flt _ x, .flt _ y => Ieee.lt x y
    | _, _ => false
  else a.code < b.code

/-- How many elements an array can have, as `Range.limit` (lube/heap.cpp:189-205, 244-249). -/
def limit : Num → Nat
  | .int x => Range.limit x.ty
  | .flt _ _ => 2 ^ 30

/-- The loops (lube/var.cpp:860-864, 886-890) with room for `n` more elements; writing beyond is out
    of bounds. -/
def loop (cond : Num → Bool) (step : Num) : Nat → Num → List Num → Outcome (List Num)
  | 0, lo, r => if cond lo then .ub .outOfBounds else .ok r
  | n + 1, lo, r =>
    if cond lo then do
      let lo' ← add lo step
      loop cond step n lo' (r ++ [lo])
    else .ok r

/-- What a var is that was nil before pushing numbers onto it (lube/var.cpp:1066-1089): nil, the
    number itself, or an array. -/
inductive Res where
  | nil
  | number (x : Num)
  | array (xs : List Num)
deriving DecidableEq, Repr

/-- Pushing all of a list onto nil (lube/var.cpp:1066-1089). -/
def pushed : List Num → Res
  | [] => .nil
  | [x] => .number x
  | xs => .array xs

/-- `irange(lo, hi, step)` (lube/var.cpp:857-866). -/
def irange (lo hi step : Num) : Outcome Res := do
  let r ← loop (fun x => lt x hi) step (limit lo) lo []
  .ok (pushed r)

/-- `irange(hi)` (lube/var.cpp:869-872). -/
def irange1 (hi : Num) : Outcome Res := do
  let lo ← sub hi hi
  irange lo hi (.int ⟨.int, 1⟩)

/-- `range(lo, hi, step)` (lube/var.cpp:883-892); `<=` is `!(hi < lo)` (lube/var.h:102-103). -/
def range (lo hi step : Num) : Outcome Res := do
  let r ← loop (fun x => !lt hi x) step (limit lo) lo []
  .ok (pushed r)

/-- `range(hi)` (lube/var.cpp:895-898). -/
def range1 (hi : Num) : Outcome Res := do
  let z ← sub hi hi
  let lo ← add z (.int ⟨.int, 1⟩)
  range lo hi (.int ⟨.int, 1⟩)

end Libube.FloatRange

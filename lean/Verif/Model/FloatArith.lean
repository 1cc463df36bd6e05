import Verif.Model.FloatRange

/-! # Arithmetic on single floating point numbers (lube/math.cpp)

Sums and differences are in Model/FloatRange.  Numbers are given as there: in units of the smallest positive one, so that
the sign of zero is left out. -/

namespace Libube.FloatRange

/-- The built-in `*` (lube/math.cpp:563, 566): the product, which is in units of 2^-`f.unit` of the smallest positive
    number, is rounded. -/
def mulF (f : Fmt) : Option Int → Option Int → Option Int
  | some x, some y =>
    if x.natAbs = 2 ^ f.top ∨ y.natAbs = 2 ^ f.top then
      (if x = 0 ∨ y = 0 then none else some ((x * y).sign * 2 ^ f.top))
    else some (rnd f f.unit (x * y))
  | _, _ => none

/-- `Mul::scalar` (lube/math.cpp:562-567) for a floating point number on the left; the type is that of the first. -/
def mulNum (f : Fmt) (a : Option Int) (b : Num) : Num := .flt f (mulF f a (castF f b))

/-- `var::operator -()` (lube/var.h:113) of a floating point number. -/
def negateNum (f : Fmt) (a : Option Int) : Num := mulNum f a (.int ⟨.int, -1⟩)

/-- The magnitude `n / d` in units of the smallest positive number, rounded as by `rndNat`; as for that, no code in /repo
    corresponds. -/
def rndQuot (f : Fmt) (n d : Nat) : Nat :=
  let k := (n / d).log2 - f.frac
  min (rdiv n (d * 2 ^ k) * 2 ^ k) (2 ^ f.top)

/-- The built-in `/` (lube/math.cpp:769, 772); division by zero is undefined by C++17 [expr.mul], though IEEE 754 gives
    infinity or no number. -/
def divF (f : Fmt) : Option Int → Option Int → Outcome (Option Int)
  | a, some y =>
    if y = 0 then .ub .divZero
    else match a with
      | none => .ok none
      | some x =>
        if x.natAbs = 2 ^ f.top then (if y.natAbs = 2 ^ f.top then .ok none else .ok (some ((x * y).sign * 2 ^ f.top)))
        else if y.natAbs = 2 ^ f.top then .ok (some 0)
        else .ok (some ((x * y).sign * rndQuot f (x.natAbs * 2 ^ f.unit) y.natAbs))
  | _, none => .ok none

/-- `Div::scalar` (lube/math.cpp:768-773) for a floating point number on the left. -/
def divNum (f : Fmt) (a : Option Int) (b : Num) : Outcome Num := do
  let r ← divF f a (castF f b)
  .ok (.flt f r)

end Libube.FloatRange

import Verif.Model.Cast

/-! # Arithmetic on single integers (lube/math.cpp)

The left operand is a `char`, `int` or `long`; the right one is any value, converted to the type of the left one. -/

namespace Libube

/-- The functors (lube/math.h:121-182) other than `pow`, which takes no integers. -/
inductive IntOp where
  | add | sub | mul | div
deriving DecidableEq, Repr

/-- A var that holds an integer (lube/var.h:33-35, 204-206). -/
inductive Whole where
  | char (c : UInt8)
  | int (i : BitVec 32)
  | long (l : BitVec 64)
deriving DecidableEq, Repr

/-- The integer as a value. -/
def Whole.val : Whole → Val
  | .char c => .char c
  | .int i => .int i
  | .long l => .long l

/-- The built-in operators on integers (used at lube/math.cpp:336-342, 415-421, 555-561, 760-766), before it is seen
    whether the result fits: division truncates. -/
def IntOp.apply : IntOp → Int → Int → Outcome Int
  | .add, x, y => .ok (x + y)
  | .sub, x, y => .ok (x - y)
  | .mul, x, y => .ok (x * y)
  | .div, x, y => if y = 0 then .ub .divZero else .ok (x.tdiv y)

/-- A result of type `int` or `long` (lube/math.cpp:339-342 and the like): overflow is undefined. -/
def fitInt (w : Nat) (z : Int) : Outcome (BitVec w) :=
  if -(2 ^ (w - 1) : Int) ≤ z ∧ z < (2 ^ (w - 1) : Int) then .ok (BitVec.ofInt w z) else .ub .overflow

/-- `scalar()` of Add, Sub, Mul and Div for integers (lube/math.cpp:335-343, 414-422, 554-562, 759-767), into a new var
    (lube/func.cpp:134-153).  Operands of type `char` are promoted to `int`, which holds all results; the result is
    converted back modulo 256. -/
def intArith (op : IntOp) (a : Whole) (b : Val) : Outcome Whole :=
  match a with
  | .char x => do
    let y ← castChar b
    let z ← op.apply x.toBitVec.toInt y.toBitVec.toInt
    .ok (.char ⟨BitVec.ofInt 8 z⟩)
  | .int x => do
    let y ← castInt b
    let z ← op.apply x.toInt y.toInt
    let r ← fitInt 32 z
    .ok (.int r)
  | .long x => do
    let y ← castLong b
    let z ← op.apply x.toInt y.toInt
    let r ← fitInt 64 z
    .ok (.long r)

/-- `var::operator -()` (lube/var.h:113) of an integer. -/
def negateInt (a : Whole) : Outcome Whole := intArith .mul a (.int (BitVec.ofInt 32 (-1)))

end Libube

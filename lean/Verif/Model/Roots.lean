import Verif.Model.Transpose
import Verif.Model.Kind
import Mathlib.Algebra.Field.Defs

/-! # roots: the companion matrix (lube/math.cpp:1050-1125)

Arithmetic is that of a field here, not floating point.  Arrays of `float` and `double` are
modelled. -/

namespace Libube.Roots

open View Transpose

/-- `a(first, rest...) = x` (lube/var.cpp:761-776, 276-308): the reference returned by
    `operator()` is assigned. -/
def setElem (a : Arr α) (first : Int) (rest : List Int) (x : α) : Outcome (Arr α) := do
  let p ← View.index a first rest
  let i ← locate a p
  let data ← store a.data i x
  .ok { a with data := data }

/-- `var(int, var)` with a number (lube/var.cpp:451-459 with `resize`, 915-946): up to size 1 the
    number is not made an array, which is `none` here. -/
def fillArr (n : Int) (x : α) : Option (Arr α) :=
  if n > 1 then some ⟨List.replicate n.toNat x, none⟩ else none

/-- The first loop (lube/math.cpp:1055-1056), from row `r` on for `n` more. -/
def lastCol [Field α] (size : Int) (r : Nat) : Nat → Arr α → Outcome (Arr α)
  | 0, a => .ok a
  | n + 1, a => do
    let a ← setElem a r [size - 1] 0
    lastCol size (r + 1) n a

/-- The inner second loop (lube/math.cpp:1058-1059), from column `c` on for `n` more. -/
def subRow [Field α] (r c : Nat) : Nat → Arr α → Outcome (Arr α)
  | 0, a => .ok a
  | n + 1, a => do
    let a ← setElem a (r + 1 : Nat) [(c : Int)] (if r = c then 1 else 0)
    subRow r (c + 1) n a

/-- The outer second loop (lube/math.cpp:1057-1059), from `r` on for `n` more. -/
def subRows [Field α] (size : Int) (r : Nat) : Nat → Arr α → Outcome (Arr α)
  | 0, a => .ok a
  | n + 1, a => do
    let a ← subRow r 0 (size - 1).toNat a
    subRows size (r + 1) n a

/-- The third loop (lube/math.cpp:1060-1061), from column `c` on for `n` more. -/
def topRow [Field α] (p : Arr α) (c : Nat) : Nat → Arr α → Outcome (Arr α)
  | 0, a => .ok a
  | n + 1, a => do
    let x ← get p (c + 1 : Nat) []
    let y ← get p 0 []
    let a ← setElem a 0 [(c : Int)] (x / y * -1)
    topRow p (c + 1) n a

/-- The matrix built by `Roots::vector` (lube/math.cpp:1053-1061) for the coefficients `p`;
    `size` is the size of the output.  `view` throws for a number (lube/var.cpp:1371-1372). -/
def companion [Field α] (size : Int) (p : Arr α) : Outcome (Arr α) := do
  let sq ← cint (size * size)
  let i ← locate p 0
  let x ← load p.data i
  match fillArr sq x with
  | none => .thrown (.error "var::view: Input not an array")
  | some a => do
    let a ← view a [size, size] 0
    let a ← lastCol size 1 (size - 1).toNat a
    let a ← subRows size 0 (size - 1).toNat a
    topRow p 0 size.toNat a

/-- `Roots::vector` (lube/math.cpp:1050-1125) for `float` and `double`: the pairs of real and
    imaginary part stored.  `geev n a` is what LAPACK returns for the `n` by `n` matrix stored at
    `a` (lube/clapack.cpp:257-290). -/
def rootsVector [Field α] (geev : Nat → List α → List (α × α)) (size : Int) (p : Arr α) : Outcome (List (α × α)) := do
  let a ← companion size p
  .ok (geev size.toNat a.data)

end Libube.Roots

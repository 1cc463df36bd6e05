import Verif.Model.Rows

/-! # Inner products and matrix multiplication (lube/math.cpp, lube/func.cpp, lube/clapack.cpp)

Arithmetic is that of a ring here, not floating point.  BLAS is replaced by the reference
implementation (https://netlib.org/blas): loops in ascending order. -/

namespace Libube.Dot

open View Transpose

/-- `?dot` of BLAS (called at lube/clapack.cpp:112-122) with strides 1, from element `i` on for `n`
    more; the complex ones conjugate the first operand. -/
def dotLoop [Ring α] (conj : α → α) (xs : List α) (px : Int) (ys : List α) (py : Int) (i : Nat) :
    Nat → α → Outcome α
  | 0, acc => .ok acc
  | n + 1, acc => do
    let x ← load xs (px + i)
    let y ← load ys (py + i)
    dotLoop conj xs px ys py (i + 1) n (acc + conj x * y)

/-- The sum for one element of `?gemm` (called at lube/clapack.cpp:215-218, 227-230) without
    transposition: row `i` of `a` and column `j` of `b`, both stored by columns. -/
def gemmSum [Ring α] (as : List α) (pa lda : Int) (bs : List α) (pb ldb : Int) (i j : Nat) (l : Nat) :
    Nat → α → Outcome α
  | 0, acc => .ok acc
  | n + 1, acc => do
    let x ← load as (pa + (i + lda * l))
    let y ← load bs (pb + (l + ldb * j))
    gemmSum as pa lda bs pb ldb i j (l + 1) n (acc + x * y)

/-- Column `j` of the result, from row `i` on for `n` more. -/
def gemmCol [Ring α] (k : Nat) (as : List α) (pa lda : Int) (bs : List α) (pb ldb : Int) (pc ldc : Int)
    (j i : Nat) : Nat → List α → Outcome (List α)
  | 0, c => .ok c
  | n + 1, c => do
    let x ← gemmSum as pa lda bs pb ldb i j 0 k 0
    let c ← store c (pc + (i + ldc * j)) x
    gemmCol k as pa lda bs pb ldb pc ldc j (i + 1) n c

/-- Columns from `j` on for `n` more, with `m` rows. -/
def gemmCols [Ring α] (m k : Nat) (as : List α) (pa lda : Int) (bs : List α) (pb ldb : Int) (pc ldc : Int)
    (j : Nat) : Nat → List α → Outcome (List α)
  | 0, c => .ok c
  | n + 1, c => do
    let c ← gemmCol k as pa lda bs pb ldb pc ldc j 0 m c
    gemmCols m k as pa lda bs pb ldb pc ldc (j + 1) n c

/-- `?gemm('N', 'N', m, n, k, 1, a, lda, b, ldb, 0, c, ldc)` (called at lube/clapack.cpp:215-218,
    227-230): leading dimensions that are too small end the program. -/
def gemmF [Ring α] (m n k : Nat) (as : List α) (pa lda : Int) (bs : List α) (pb ldb : Int) (c : List α) (pc ldc : Int) :
    Outcome (List α) :=
  if lda < max 1 m ∨ ldb < max 1 k ∨ ldc < max 1 m then .abort
  else gemmCols m k as pa lda bs pb ldb pc ldc 0 n c

/-- `blas::gemm` (lube/clapack.cpp:208-232) with factors 1 and 0, as called at lube/math.cpp:724-742:
    `b` comes first, and the dimensions are exchanged. -/
def gemm [Ring α] (m n k : Nat) (as : List α) (pa : Int) (bs : List α) (pb : Int) (c : List α) (pc : Int) : Outcome (List α) :=
  gemmF n m k bs pb n as pa k c pc n

/-- `Dot::vector` (lube/math.cpp:659-749).  The second offset is always 0.  The output is new
    storage, so it is not the first operand (666).  An array of `cdouble` has the type `cdouble` for
    the assertion (665, 76-82). -/
def vector [Ring α] (conj : α → α) (k : Kind) (a b out : Arr α) (offA offO : Int) (dst : List α) : Outcome (List α) :=
  if k = .cdouble then .abort
  else do
  let pa ← offset a
  let pb ← offset b
  let po ← offset out
  if dim b = 1 then do
    let n ← size b
    match k with
    | .float | .double => do
      let x ← dotLoop id a.data (pa + offA) b.data pb 0 n.toNat 0
      store dst (po + offO) x
    | .cfloat => do
      let x ← dotLoop conj a.data (pa + offA) b.data pb 0 n.toNat 0
      store dst (po + offO) x
    | _ => .thrown (.error "Dot::vector: Unknown type")
  else if dim b = 2 then do
    let a0 ← shape a 0
    let a1 ← shape a 1
    let b0 ← shape b 0
    let b1 ← shape b 1
    if a1 ≠ b0 then .thrown (.error "Dot::vector: Shapes not compatible")
    else match k with
    | .float | .double => gemm a0.toNat b1.toNat a1.toNat a.data (pa + offA) b.data pb dst (po + offO)
    | _ => .thrown (.error "Dot::vector: Unknown type")
  else .thrown (.error "Dot::vector: Dimension > 2")

/-- `Dot::alloc` (lube/math.cpp:637-656); `junk` is what the new storage holds.  Element 0 of the first
    operand is read (651). -/
def alloc (junk : List α) (a b : Arr α) : Outcome (Arr α) :=
  if dim b = 1 then Rows.scalarAlloc junk a
  else if dim b = 2 then
    if dim a < 2 then .thrown (.error "Dot::alloc: var1 dimension < 2")
    else do
      let s ← shapeLoop a 0 (dim a)
      let x ← shape b 1
      let s ← ipSet s (s.length - 1) x
      let o ← offset a
      let _ ← load a.data o
      newView s junk
  else .thrown (.error "Dot::alloc: var2 dimension > 2")

/-- `ArithmeticFunctor::broadcast` (lube/func.cpp:257-299), which `scalar()` calls (172-177).  For a second
    operand of one element (264-273) it calls itself through `scalar()` with a number, for which it
    does the same again. -/
def broadcast [Ring α] (conj : α → α) (k k' : Kind) (a b out : Arr α) : Outcome (List α) := do
  let sa ← size a
  let sb ← size b
  if dim b = 1 ∧ sb = 1 then (if sa > 0 then .diverge else .ok out.data)
  else if dim b > dim a then .thrown (.error "var::broadcast: input dimension too large")
  else if k ≠ k' then .thrown (.error "var::broadcast: types must match (for now)")
  else do
    let stepA ← blockStep a (dim b)
    let stepO ← blockStep out (dim b)
    if stepA = 0 then .ub .divZero
    else blocks (vector conj k a b out) stepA stepO 0 (sa.tdiv stepA).toNat out.data

/-- `dot(a, b)` (lube/func.cpp:146-153): a new array, or for two plain arrays a number, which is an array of
    one element here. -/
def dot [Ring α] (conj : α → α) (k k' : Kind) (junk : List α) (a b : Arr α) : Outcome (Arr α) := do
  let out ← alloc junk a b
  let data ← broadcast conj k k' a b out
  .ok ⟨data, out.ip⟩

end Libube.Dot

import Verif.Model.View
import Verif.Model.Kind

/-! # Transposition (lube/transpose-adhoc.cpp)

Matrices are the trailing two dimensions of a view.  Dimensions are taken not to be negative, and
index arithmetic inside a matrix that fits in memory does not overflow, so it is done in `Nat`. -/

namespace Libube.Transpose

open View

/-- Writing the element of a heap at a location; outside of the elements it is undefined. -/
def store (data : List α) (i : Int) (x : α) : Outcome (List α) :=
  if 0 ≤ i ∧ i < data.length then .ok (data.set i.toNat x) else .ub .outOfBounds

/-- The loop over columns of `outOfPlace` (lube/transpose-adhoc.cpp:77-78), from column `c` on
    for `n` more; `si` and `di` are where the source and target pointers point. -/
def outCols (src : List α) (si : Int) (R C r : Nat) (di : Int) (c : Nat) :
    Nat → List α → Outcome (List α)
  | 0, dst => .ok dst
  | n + 1, dst => do
    let x ← load src (si + (r * C + c : Nat))
    let dst ← store dst (di + (c * R + r : Nat)) x
    outCols src si R C r di (c + 1) n dst

/-- The loop over rows of `outOfPlace` (lube/transpose-adhoc.cpp:76), from row `r` on for `n`
    more. -/
def outRows (src : List α) (si : Int) (R C : Nat) (di : Int) (r : Nat) :
    Nat → List α → Outcome (List α)
  | 0, dst => .ok dst
  | n + 1, dst => do
    let dst ← outCols src si R C r di 0 C dst
    outRows src si R C di (r + 1) n dst

/-- `outOfPlace` (lube/transpose-adhoc.cpp:73-79). -/
def outOfPlace (src : List α) (si : Int) (R C : Nat) (dst : List α) (di : Int) : Outcome (List α) :=
  outRows src si R C di 0 R dst

/-- Where `inPlace` moves the element at `k` (lube/transpose-adhoc.cpp:111-113, 129-131):
    `i = k % n; j = k / n; i*m + j` with `m` rows and `n` columns. -/
def next (m n k : Nat) : Nat := (k % n) * m + k / n

/-- The first `do` loop of `inPlace` (lube/transpose-adhoc.cpp:103-115), entered with `k_new`;
    the result is `abort`.  `fuel` bounds the number of rounds. -/
def lookAhead (m n start kNew : Nat) : Nat → Outcome Bool
  | 0 => .diverge
  | fuel + 1 =>
    if kNew < start then .ok true
    else
      let kNew := next m n kNew
      if kNew ≠ start then lookAhead m n start kNew fuel else .ok false

/-- The second `do` loop of `inPlace` (lube/transpose-adhoc.cpp:125-133), entered with `k_new` and
    `temp`; `p` is where the data pointer points. -/
def rotate (m n start : Nat) (p : Int) (data : List α) (temp : α) (kNew : Nat) :
    Nat → Outcome (List α × α)
  | 0 => .diverge
  | fuel + 1 => do
    let x ← load data (p + kNew)
    let data ← store data (p + kNew) temp
    let kNew := next m n kNew
    if kNew ≠ start then rotate m n start p data x kNew fuel else .ok (data, x)

/-- The `for` loop of `inPlace` (lube/transpose-adhoc.cpp:95-135) from `k_start` on for `cnt`
    more values. -/
def cycles (m n : Nat) (p : Int) (fuel start : Nat) : Nat → List α → Outcome (List α)
  | 0, data => .ok data
  | cnt + 1, data => do
    let temp ← load data (p + start)
    if ← lookAhead m n start start fuel then cycles m n p fuel (start + 1) cnt data
    else do
      let (data, temp) ← rotate m n start p data temp start fuel
      let data ← store data (p + start) temp
      cycles m n p fuel (start + 1) cnt data

/-- `inPlace` (lube/transpose-adhoc.cpp:87-136). -/
def inPlace (fuel : Nat) (data : List α) (p : Int) (m n : Nat) : Outcome (List α) :=
  cycles m n p fuel 1 (m * n - 1) data

/-- The loop of `UnaryFunctor::broadcast` over offsets (lube/func.cpp:129-130), for operations
    `i .. i+n-1`; `f` is `vector(iVar, stepI*i, oVar, stepO*i)` on the contents of the output. -/
def blocks (f : Int → Int → List α → Outcome (List α)) (stepI stepO : Int) (i : Nat) :
    Nat → List α → Outcome (List α)
  | 0, out => .ok out
  | n + 1, out => do
    let out ← f (stepI * i) (stepO * i) out
    blocks f stepI stepO (i + 1) n out

/-- The step for the input or output of `UnaryFunctor::broadcast` (lube/func.cpp:126-127). -/
def blockStep (a : Arr α) (mDim : Nat) : Outcome Int :=
  if dim a - mDim > 0 then stride a ((dim a : Int) - mDim - 1) else size a

/-- `UnaryFunctor::broadcast` with `mDim > 0` (lube/func.cpp:113-130); `out` is the output array,
    of which only the contents change.  Division by zero is undefined. -/
def broadcast (mDim : Nat) (f : Int → Int → List α → Outcome (List α)) (a out : Arr α) :
    Outcome (List α) :=
  if mDim > dim a then .thrown (.error "UnaryFunctor::broadcast: dimension too large")
  else do
    let stepI ← blockStep a mDim
    let stepO ← blockStep out mDim
    let s ← size a
    if stepI = 0 then .ub .divZero
    else blocks f stepI stepO 0 (s.tdiv stepI).toNat out.data

/-- `Transpose::vector` to a new location (lube/transpose-adhoc.cpp:138-142, 157-171) for floats
    and doubles. -/
def vectorOut (a : Arr α) (out : Arr α) (offI offO : Int) (dst : List α) : Outcome (List α) := do
  let rows ← shape a ((dim a : Int) - 2)
  let cols ← shape a ((dim a : Int) - 1)
  let o ← offset a
  let o' ← offset out
  outOfPlace a.data (o + offI) rows.toNat cols.toNat dst (o' + offO)

/-- `Transpose::vector` in place (lube/transpose-adhoc.cpp:138-156) for floats and doubles. -/
def vectorIn (fuel : Nat) (a : Arr α) (_offI offO : Int) (dst : List α) : Outcome (List α) := do
  let rows ← shape a ((dim a : Int) - 2)
  let cols ← shape a ((dim a : Int) - 1)
  let o ← offset a
  inPlace fuel dst (o + offO) rows.toNat cols.toNat

/-- The type switches of `Transpose::vector` (lube/transpose-adhoc.cpp:146-156, 159-171): anything
    but floats and doubles is an error. -/
def vectorOf (k : Kind) (f : Int → Int → List α → Outcome (List α)) (offI offO : Int) (dst : List α) :
    Outcome (List α) :=
  match k with
  | .float | .double => f offI offO dst
  | _ => .thrown (.error "Transpose::vector(): unknown type")

/-- `libube::view(shape, type)` (lube/var.cpp:1399-1408): a new array and the view of it.  `junk`
    is what happens to be in the new memory. -/
def newView (sh : List Int) (junk : List α) : Outcome (Arr α) := do
  let ip ← mkView junk.length 0 sh 0
  .ok ⟨junk, some ip⟩

/-- `transpose(x)` (lube/func.cpp:32-37 with `alloc` and `scalar` of
    lube/transpose-adhoc.cpp:22-50): the last two dimensions are swapped in the new array.
    `junk` is the initial contents of the new array, `k` the type of the elements. -/
def transposeNew (k : Kind) (junk : List α) (a : Arr α) : Outcome (Arr α) := do
  let s ← shapeLoop a 0 (dim a)
  if s.length < 2 then .thrown (.error "Transpose::alloc: dimension < 2")
  else do
    let x ← ipGet s (s.length - 1)
    let y ← ipGet s (s.length - 2)
    let s ← ipSet s (s.length - 1) y
    let s ← ipSet s (s.length - 2) x
    let out ← newView s junk
    let data ← broadcast 2 (vectorOf k (vectorOut a out)) a out
    .ok ⟨data, out.ip⟩

/-- Swapping the trailing dimensions of a view (lube/transpose-adhoc.cpp:55-65). -/
def swapDims (ip : List Int) (d : Nat) : Outcome (List Int) := do
  let str1 ← viewStride ip ((d : Int) - 1)
  let shp1 ← viewShape ip ((d : Int) - 1)
  let _ ← viewStride ip ((d : Int) - 2)
  let shp2 ← viewShape ip ((d : Int) - 2)
  let ip ← ipSet ip ((d - 1) * 2 + 1) shp2
  let ip ← ipSet ip ((d - 2) * 2 + 1) shp1
  let t ← cint (shp2 * str1)
  ipSet ip ((d - 2) * 2 + 2) t

/-- `x.transpose()` (lube/var.h:169) on a view: `Transpose::scalar` with input and output the same
    (lube/transpose-adhoc.cpp:42-67). -/
def transposeInPlace (k : Kind) (fuel : Nat) (a : Arr α) : Outcome (Arr α) := do
  let data ← broadcast 2 (vectorOf k (vectorIn fuel a)) a a
  match a.ip with
  | none => .thrown (.error "Heap::stride(): not a view")
  | some ip => do
    let ip ← swapDims ip (dim a)
    .ok ⟨data, some ip⟩

end Libube.Transpose

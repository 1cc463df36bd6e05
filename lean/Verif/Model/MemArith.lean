import Verif.Model.MemString

/-! # Arithmetic on variables, elements and nested arrays (lube/func.cpp, lube/math.cpp)

The operands are vars of the memory machine: numbers, references to elements, arrays of numbers, of
vars and of pairs.  Views are not modelled here; for numeric arrays they are in `Model/Arith`. -/

namespace Libube.Mem

/-- The functors (lube/math.h:47-54, 121-182). -/
inductive ArithOp where
  | pow | add | sub | mul | div
deriving DecidableEq, Repr

/-- A functor with its operation on two numbers of type `k`; `ok` tells where it is defined (no overflow,
    no division of an integer by zero). -/
structure Bin (α : Type) where
  op : ArithOp
  ok : Kind → α → α → Bool
  f : Kind → α → α → α

/-- The name of a functor in its messages (lube/math.cpp:209, 357, 436, 576, 781). -/
def ArithOp.name : ArithOp → String
  | .pow => "Pow"
  | .add => "Add"
  | .sub => "Sub"
  | .mul => "Mul"
  | .div => "Div"

/-- The cases of the `switch` other than `TYPE_ARRAY` (lube/math.cpp:196-207, 335-355, 414-434, 554-574,
    759-779). -/
def ArithOp.takes (op : ArithOp) (k : Kind) : Bool :=
  match k with
  | .var | .pair => false
  | .char | .int | .long => decide (op ≠ .pow)
  | _ => true

/-- The operation on two numbers. -/
def Bin.apply (F : Bin α) (k : Kind) (x y : α) : M α α :=
  if F.ok k x y then pure (F.f k x y) else undef .overflow

/-- `ptr<T>(i)` of an array (lube/heap.h:96-107), written to. -/
def setTyped (k : Kind) (b : Addr) (i : Nat) (x : α) : M α Unit := do
  let o ← obj b
  if o.kind = k then setRaw b i x else undef .typePun

/-- `ptr<T>(i)` of a var that is no reference (lube/var.cpp:174), written to.  Writing a number of another
    type, or over the pointer of nil, is taken as undefined at once; in C++ it is what happens to the var
    later that is. -/
def setPlain (k : Kind) (l : Loc) (i : Nat) (x : α) : M α Unit := do
  match ← readLoc l with
  | .arr b => setTyped k b i x
  | .num j _ => if j = k ∧ i = 0 then writeLoc l (.num k x) else undef .typePun
  | _ => undef .typePun

/-- `*oVar.ptr<T>(i) = x` (lube/var.cpp:165-175) with `varderef` (484-497). -/
def setPtr (k : Kind) (lo : Loc) (i : Nat) (x : α) : M α Unit := do
  match ← readLoc lo with
  | .ref b j => do
    match ← derefLoc b j with
    | some r => setPlain k r i x
    | none => setTyped k b (j + i) x
  | _ => setPlain k lo i x

/-- Writing the result of one operation: `pow` assigns (lube/math.cpp:197-206), the others write by pointer
    (336-354, 415-433, 555-573, 760-778). -/
def Bin.store [Env α] (F : Bin α) (k : Kind) (lo : Loc) (z : α) : M α Unit :=
  if F.op = .pow then do
    let r ← newNum k z
    assign lo r
  else setPtr k lo 0 z

/-- Element `j` of an array read by pointer (lube/var.cpp:165-175). -/
def elemAt (v : V α) (j : Nat) : M α α := do
  match ← derefV v with
  | .arr a => rawAt a j
  | _ => undef .typePun

/-- The loop of `blas::scal` (lube/math.cpp:490-544) from element `j`, `n` elements to go; copying and then
    scaling is done element by element here. -/
def scaleLoop (F : Bin α) (k : Kind) (v : V α) (y : α) (lo : Loc) : Nat → Nat → M α Unit
  | _, 0 => pure ()
  | j, n + 1 => do
    let x ← elemAt v j
    let z ← F.apply k x y
    setPtr k lo j z
    scaleLoop F k v y lo (j + 1) n

/-- `Mul::scale` (lube/math.cpp:490-544): the number is converted once. -/
def scaleArr [Env α] (F : Bin α) (v w : V α) (lo : Loc) : M α Unit := do
  let n ← sizeV v
  let k ← atypeV v
  if k = .float ∨ k = .double then do
    let y ← castV k w
    scaleLoop F k v y lo 0 n
  else throwE (.error "Mul::scal: Unknown type")

/-- The loops of `blas::axpy`, `tbmv` and `sbmv` (lube/math.cpp:373-399, 452-464, 597-629) from element
    `j`, `n` elements to go. -/
def vecLoop (F : Bin α) (k : Kind) (v w : V α) (lo : Loc) : Nat → Nat → M α Unit
  | _, 0 => pure ()
  | j, n + 1 => do
    let y ← elemAt w j
    let x ← elemAt v j
    let z ← F.apply k x y
    setPtr k lo j z
    vecLoop F k v w lo (j + 1) n

/-- The element types of `vector()` (lube/math.cpp:371-403, 450-468, 595-633): those that Add, Sub and Mul have. -/
def ArithOp.vectorTypes (op : ArithOp) (k : Kind) : Bool :=
  match k with
  | .float | .double => true
  | .cfloat => decide (op = .add)
  | _ => false

/-- `vector()` of the functors with offsets 0 (lube/math.cpp:362-404, 441-469, 581-634), and of those without
    one (lube/func.cpp:188-219): there a reference to the first element of each operand is made, which an
    empty array gets.  `lv` and `lw` are the operands' copies. -/
def vectorArr [Env α] (F : Bin α) (k : Kind) (v w : V α) (lv lw lo : Loc) : M α Unit := do
  if F.op = .div ∨ F.op = .pow then do
    let r1 ← index lv 0
    withVar r1 fun _ => do
      let r2 ← index lw 0
      withVar r2 fun _ => do
        let r3 ← index lo 0
        withVar r3 fun _ => throwE (.error "BinaryFunctor: not a vector operation")
  else do
    let same ← isSame false v lo
    if F.op ≠ .mul ∧ same = false then abortM
    else do
      let n ← sizeV w
      if F.op.vectorTypes k then vecLoop F k v w lo 0 n
      else throwE (.error (F.op.name ++ "::vector: Unknown type"))

/-- `ArithmeticFunctor::broadcast` (lube/func.cpp:257-299) and `Mul::broadcast` (lube/math.cpp:476-487) for
    operands of dimension 1; `sc` is `scalar`. -/
def arithArr [Env α] (F : Bin α) (sc : V α → Loc → M α Unit) (v w : V α) (lv lw lo : Loc) : M α Unit := do
  let m ← sizeV w
  if m = 1 then
    if F.op = .mul then scaleArr F v w lo
    else do
      let n ← sizeV v
      broadcast sc v lo 0 n
  else do
    let k ← atypeV v
    let j ← atypeV w
    if k ≠ j then throwE (.error "var::broadcast: types must match (for now)")
    else do
      let n ← sizeV v
      if n = 0 then undef .divZero
      else vectorArr F k v w lv lw lo

/-- `scalar()` of the functors (lube/math.cpp:189-211, 328-359, 407-438, 547-577, 752-783): `v` and `w` are
    the operands, `lo` is the output.  The first number bounds the depth of the recursion. -/
def arith [Env α] (F : Bin α) : Nat → V α → V α → Loc → M α Unit
  | 0, _, _, _ => fun _ => .diverge
  | d + 1, v, w, lo => do
    match ← mathType v with
    | none => do
      attachV v
      withVar v fun lv => do
        attachV w
        withVar w fun lw => arithArr F (fun t lr => arith F d t w lr) v w lv lw lo
    | some k =>
      if F.op.takes k then do
        let x ← getV k v
        let y ← castV k w
        let z ← F.apply k x y
        F.store k lo z
      else throwE (.error (F.op.name ++ "::scalar: Unknown type"))

/-- `BinaryFunctor::operator()(iVar1, iVar2, oVar)` (lube/func.cpp:160-166) for variables `n` and `m`.  With
    `m = n` it is `n op= w` (lube/var.h:105-108) and `n.pow(w)` (161). -/
def arithTo [Env α] (F : Bin α) (d n : Nat) (w : V α) (m : Nat) : M α (V α) :=
  withVar w fun _ => do
    let v ← readLoc (.slot n)
    arith F d v w (.slot m)
    copyV (← readLoc (.slot m))

/-- `BinaryFunctor::operator()(iVar1, iVar2)` (lube/func.cpp:146-153) with `alloc` (134-139) for variable `n`, as
    in `n op w` (lube/var.h:109-112).  A copy only allocates: numbers are uninitialised, vars are nil. -/
def arithNew [Env α] (F : Bin α) (d n : Nat) (w : V α) : M α (V α) :=
  withVar w fun _ => do
    let v ← readLoc (.slot n)
    let r ← match ← heapOf v with
      | none => copyV v
      | some a => do
        let o ← obj a
        let b ← newHeap o.size (some o.kind)
        pure (.arr b)
    withVar .nil fun lr => do
      assign lr r
      arith F d v w lr
      copyV (← readLoc lr)

end Libube.Mem

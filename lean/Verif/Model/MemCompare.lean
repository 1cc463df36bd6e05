import Verif.Model.MemPrint
import Verif.Model.Value

/-! # Comparing (lube/var.cpp:508-575, lube/heap.cpp:392-465, lube/var.h:99-104) and searching (lube/var.cpp:1194-1214, 1329-1348) with the vars in memory

`Model/Value` has the results for values.  Here parameters are copies, `Heap::at` makes a new var and `var::at` a temporary reference.
Views are not modelled. -/

namespace Libube.Mem

open CString

variable {α : Type}

/-- The values of the numbers in memory, by the member of `mData` that is read (lube/var.h:203-211). -/
structure Numbers (α : Type) where
  char : α → UInt8
  int : α → BitVec 32
  long : α → BitVec 64
  float : α → BitVec 32
  double : α → BitVec 64
  cfloat : α → BitVec 32 × BitVec 32
  cdouble : α → BitVec 64 × BitVec 64

/-- `std::abs(cdouble)` (lube/var.cpp:568), about which nothing is assumed. -/
opaque cabsd (re im : BitVec 64) : BitVec 64

/-- `!=` of two numbers of a type (lube/var.cpp:518-531). -/
def Numbers.ne (N : Numbers α) (k : Kind) (x y : α) : Bool :=
  match k with
  | .char => N.char x != N.char y
  | .int => N.int x != N.int y
  | .long => N.long x != N.long y
  | .float => !Ieee.eq (Ieee.val32 (N.float x)) (Ieee.val32 (N.float y))
  | .double => !Ieee.eq (Ieee.val64 (N.double x)) (Ieee.val64 (N.double y))
  | .cfloat => !(Ieee.eq (Ieee.val32 (N.cfloat x).1) (Ieee.val32 (N.cfloat y).1) && Ieee.eq (Ieee.val32 (N.cfloat x).2) (Ieee.val32 (N.cfloat y).2))
  | _ => !(Ieee.eq (Ieee.val64 (N.cdouble x).1) (Ieee.val64 (N.cdouble y).1) && Ieee.eq (Ieee.val64 (N.cdouble x).2) (Ieee.val64 (N.cdouble y).2))

/-- `<` of two numbers of a type (lube/var.cpp:555-568). -/
def Numbers.lt (N : Numbers α) (k : Kind) (x y : α) : Bool :=
  match k with
  | .char => decide ((N.char x).toBitVec.toInt < (N.char y).toBitVec.toInt)
  | .int => decide ((N.int x).toInt < (N.int y).toInt)
  | .long => decide ((N.long x).toInt < (N.long y).toInt)
  | .float => Ieee.lt (Ieee.val32 (N.float x)) (Ieee.val32 (N.float y))
  | .double => Ieee.lt (Ieee.val64 (N.double x)) (Ieee.val64 (N.double y))
  | .cfloat => Ieee.lt (Ieee.val32 (cabsf (N.cfloat x).1 (N.cfloat x).2)) (Ieee.val32 (cabsf (N.cfloat y).1 (N.cfloat y).2))
  | _ => Ieee.lt (Ieee.val64 (cabsd (N.cdouble x).1 (N.cdouble x).2)) (Ieee.val64 (cabsd (N.cdouble y).1 (N.cdouble y).2))

/-- `Heap::at(i)` (lube/heap.cpp:394-435), for `iKey` false: a new var.  Elements are never references (`cells_not_refs`), so `r = vp[i]`
    shares what the element refers to. -/
def heapAt [Env α] (a : Addr) (i : Nat) : M α (V α) := do
  let o ← obj a
  if i < o.size then
    match o.kind with
    | .var | .pair => do copyV (← readLoc (.cell a i))
    | k => do boxed k (← rawAt a i)
  else throwE (.rangeError "Heap::at(): index out of bounds")

/-- `at(i) != iHeap->at(i)` or `<` (lube/heap.cpp:451, 462) with `f` the operator; `b` is `iHeap`. -/
def pairwise [Env α] (f : V α → V α → M α Bool) (a : Addr) (b : Option Addr) (i : Nat) : M α Bool := do
  withVar (← heapAt a i) fun l =>
    match b with
    | none => undef .nullDeref
    | some b => do
      withVar (← heapAt b i) fun m => do f (← readLoc l) (← readLoc m)

/-- A loop that ends with `true` at the first `true` (lube/heap.cpp:450-453, 461-464) from `i`, `n` to go.  The sizes are asked for once. -/
def anyLoop (f : Nat → M α Bool) : Nat → Nat → M α Bool
  | _, 0 => pure false
  | i, n + 1 => do
    if ← f i then pure true else anyLoop f (i + 1) n

/-- `operator !=` (lube/var.cpp:508-538) with `Heap::neq` (lube/heap.cpp:448-454); the number bounds the depth. -/
def neqV [Env α] (N : Numbers α) : Nat → V α → V α → M α Bool
  | 0, _, _ => fun _ => .diverge
  | n + 1, v, w => do
    let t ← typeV v
    let u ← typeV w
    if t ≠ u then pure true
    else do
      let k ← sizeV v
      let l ← sizeV w
      if k ≠ l then pure true
      else match t with
        | none => do
          match ← heapOf v with
          | none => undef .nullDeref
          | some a => do
            let b ← heapOf w
            let o ← obj a
            anyLoop (pairwise (neqV N n) a b) 0 o.size
        | some .var => throwE (.error "operator !=(): Unknown type")
        | some .pair => throwE (.error "operator !=(): Unknown type")
        | some k => do
          let x ← getV k v
          let y ← getV k w
          pure (N.ne k x y)

/-- `std::strcmp(..) < 0` (lube/heap.cpp:460) for the characters of two arrays from place `i`, `n` places left. -/
def cmpChars (N : Numbers α) (a b : Addr) : Nat → Nat → M α Bool
  | _, 0 => undef .outOfBounds
  | i, n + 1 => do
    let x ← rawAt a i
    let y ← rawAt b i
    if N.char x ≠ N.char y then pure (decide (N.char x < N.char y))
    else if N.char x = 0 then pure false
    else cmpChars N a b (i + 1) n

/-- The numbers of types (lube/var.h:31-42). -/
def typeNumber : Option Kind → Nat
  | none => 0
  | some .char => 1
  | some .int => 2
  | some .long => 3
  | some .float => 4
  | some .double => 5
  | some .cfloat => 6
  | some .cdouble => 7
  | some .var => 8
  | some .pair => 9

/-- `Heap::lt` (lube/heap.cpp:457-465). -/
def heapLt [Env α] (N : Numbers α) (f : V α → V α → M α Bool) (a b : Addr) : M α Bool := do
  let o ← obj a
  let p ← obj b
  if o.kind = .char ∧ p.kind = .char then cmpChars N a b 0 (min o.cells.length p.cells.length)
  else anyLoop (pairwise f a (some b)) 0 (min o.size p.size)

/-- `operator <` (lube/var.cpp:546-575). -/
def ltV [Env α] (N : Numbers α) : Nat → V α → V α → M α Bool
  | 0, _, _ => fun _ => .diverge
  | n + 1, v, w => do
    let t ← typeV v
    let u ← typeV w
    if t ≠ u then pure (decide (typeNumber t < typeNumber u))
    else match t with
      | none => do
        match ← heapOf v with
        | none => undef .nullDeref
        | some a => do
          match ← heapOf w with
          | none => undef .nullDeref
          | some b => heapLt N (ltV N n) a b
      | some .var => throwE (.error "operator <(): Unknown type")
      | some .pair => throwE (.error "operator <(): Unknown type")
      | some k => do
        let x ← getV k v
        let y ← getV k w
        pure (N.lt k x y)

/-- `v != w` and `v < w` (lube/var.h:99-100) with `f` the operator: the parameter is a copy of `w`. -/
def callOp (f : V α → V α → M α Bool) (v w : V α) : M α Bool := do
  withVar (← copyV w) fun l => do f v (← readLoc l)

/-- `v == w` (lube/var.h:101). -/
def eqV [Env α] (N : Numbers α) (n : Nat) (v w : V α) : M α Bool := do
  withVar (← copyV w) fun l => do
    let r ← callOp (neqV N n) v (← readLoc l)
    pure (!r)

/-- `x != y` for variables `m` and `k` (lube/var.cpp:508-538). -/
def differ [Env α] (N : Numbers α) (n m k : Nat) : M α Bool := do
  callOp (neqV N n) (← readLoc (.slot m)) (← readLoc (.slot k))

/-- `x == y` (lube/var.h:101). -/
def equal [Env α] (N : Numbers α) (n m k : Nat) : M α Bool := do
  eqV N n (← readLoc (.slot m)) (← readLoc (.slot k))

/-- `x < y` (lube/var.cpp:546-575). -/
def less [Env α] (N : Numbers α) (n m k : Nat) : M α Bool := do
  callOp (ltV N n) (← readLoc (.slot m)) (← readLoc (.slot k))

/-- The loop of `var::binary` (lube/var.cpp:1338-1346); `x p` makes the var `x` for position `p`, and the first number bounds the steps. -/
def searchV [Env α] (N : Numbers α) (n : Nat) (x : Nat → M α (V α)) (w : V α) : Nat → Nat → Nat → M α Nat
  | 0, _, _ => fun _ => .diverge
  | f + 1, lo, hi =>
    if lo = hi then pure hi
    else do
      let r ← withVar (← x ((hi - lo) / 2 + lo)) fun l => do callOp (ltV N n) (← readLoc l) w
      if r then searchV N n x w f ((hi - lo) / 2 + lo + 1) hi else searchV N n x w f lo ((hi - lo) / 2 + lo)

/-- `var::binary` (lube/var.cpp:1329-1348) for the parameter `w`. -/
def binaryV [Env α] (N : Numbers α) (n : Nat) (v w : V α) : M α Nat := do
  let s ← sizeV v
  if s = 0 then pure 0
  else do
    match ← heapOf v with
    | none => searchV N n (fun p => at' v p) w (s + 1) 0 s
    | some a => do
      let o ← obj a
      if o.kind = .pair then searchV N n (fun p => keyAt v p) w (s + 1) 0 s
      else searchV N n (fun p => at' v p) w (s + 1) 0 s

/-- The loop of `var::index` (lube/var.cpp:1209-1211) from `i`, `m` to go. -/
def findLoop (f : Nat → M α Bool) : Nat → Nat → M α Int
  | _, 0 => pure (-1)
  | i, m + 1 => do
    if ← f i then pure i else findLoop f (i + 1) m

/-- `var::index` (lube/var.cpp:1194-1214) for the parameter `w`. -/
def indexV [Env α] (N : Numbers α) (n : Nat) (v w : V α) : M α Int := do
  if !(← definedV v) then pure (-1)
  else do
    match ← atypeV v with
    | .pair => do
      let p ← withVar (← copyV w) fun l => do binaryV N n v (← readLoc l)
      let s ← sizeV v
      if p < s then do
        match ← heapOf v with
        | none => undef .nullDeref
        | some a => do
          if ← eqV N n (← readLoc (.key a p)) w then pure p else pure (-1)
      else pure (-1)
    | _ => do
      let s ← sizeV v
      findLoop (fun i => do withVar (← at' v i) fun l => do eqV N n (← readLoc l) w) 0 s

/-- `x.index(y)` for variables `m` and `k` (lube/var.cpp:1194-1214). -/
def indexOf [Env α] (N : Numbers α) (n m k : Nat) : M α Int := do
  withVar (← copyV (← readLoc (.slot k))) fun l => do indexV N n (← readLoc (.slot m)) (← readLoc l)

/-- `x.binary(y)` for variables `m` and `k` (lube/var.cpp:1329-1348). -/
def binaryOf [Env α] (N : Numbers α) (n m k : Nat) : M α Nat := do
  withVar (← copyV (← readLoc (.slot k))) fun l => do binaryV N n (← readLoc (.slot m)) (← readLoc l)

end Libube.Mem

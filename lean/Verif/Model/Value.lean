import Verif.Model.CString

/-! # Values: what a `var` holds, seen from outside

A `Val` is the content of a `var` after following references and heap pointers: a tree.
Sharing, references and capacity are the business of the memory machine; views are modelled
separately.  Each constructor names the pair of `mType` and heap type it stands for
(lube/var.h:31-42, 202-216; lube/heap.h:156-170). -/

namespace Libube

open CString

/-- Content of a `var` (lube/var.h:202-216): `nil` is `TYPE_ARRAY` with a null heap pointer;
    the next six are scalars; then dense arrays by heap type (lube/heap.h:156-166), arrays of
    vars and arrays of pairs ("maps").  Floats are IEEE bit patterns.  Views are not values of
    this type. -/
inductive Val where
  | nil
  | char (c : UInt8)
  | int (i : BitVec 32)
  | long (l : BitVec 64)
  | float (f : BitVec 32)
  | double (d : BitVec 64)
  | cfloat (re im : BitVec 32)
  | chars (s : List UInt8)
  | ints (xs : List (BitVec 32))
  | longs (xs : List (BitVec 64))
  | floats (xs : List (BitVec 32))
  | doubles (xs : List (BitVec 64))
  | cfloats (xs : List (BitVec 32 × BitVec 32))
  | cdoubles (xs : List (BitVec 64 × BitVec 64))
  | arr (xs : List Val)
  | map (ps : List (Val × Val))

namespace Ieee

/-- The number a binary floating point pattern with `m` fraction bits and `e` exponent bits
    denotes, in units of the smallest positive number; `none` for NaN.  An infinity gets the
    value that continues the sequence, which is beyond every finite one.  Gives the meaning of
    the built-in `<`, `==` and `!=` used at lube/var.cpp:524-527 and 561-564. -/
def value (e m : Nat) (bits : Nat) : Option Int :=
  let frac := bits % 2 ^ m
  let ex := bits / 2 ^ m % 2 ^ e
  let neg := bits / 2 ^ (m + e) % 2 = 1
  if ex = 2 ^ e - 1 ∧ frac ≠ 0 then none
  else
    let mag : Nat := if ex = 0 then frac else (2 ^ m + frac) * 2 ^ (ex - 1)
    some (if neg then -(mag : Int) else mag)

/-- `float` (lube/var.h:207): 8 exponent and 23 fraction bits. -/
def val32 (f : BitVec 32) : Option Int := value 8 23 f.toNat

/-- `double` (lube/var.h:208): 11 exponent and 52 fraction bits. -/
def val64 (d : BitVec 64) : Option Int := value 11 52 d.toNat

/-- IEEE `<` on the denoted numbers: false if either is NaN (lube/var.cpp:562, 564). -/
def lt (a b : Option Int) : Bool :=
  match a, b with
  | some x, some y => x < y
  | _, _ => false

/-- IEEE `==` on the denoted numbers: false if either is NaN (lube/var.cpp:525, 527). -/
def eq (a b : Option Int) : Bool :=
  match a, b with
  | some x, some y => x = y
  | _, _ => false

end Ieee

/-- `std::abs(cfloat)` as used at lube/var.cpp:566: some function to floats about which
    nothing is assumed. -/
opaque cabsf (re im : BitVec 32) : BitVec 32

namespace Val

/-- `var::type()` on a dereferenced var (lube/var.cpp:622-627), with the numbering of
    lube/var.h:31-42. -/
def type : Val → Nat
  | char _ => 1
  | int _ => 2
  | long _ => 3
  | float _ => 4
  | double _ => 5
  | cfloat _ _ => 6
  | _ => 0

/-- `heap()` is not null (lube/var.cpp:1241-1246). -/
def hasHeap : Val → Bool
  | nil | char _ | int _ | long _ | float _ | double _ | cfloat _ _ => false
  | _ => true

/-- The results of `Heap::at(i)` for `i = 0 .. mSize-1` (lube/heap.cpp:394-435).  `r = cdp[i]`
    (421) goes through `var(cdouble)` (lube/var.cpp:409-413), an array of one cdouble; for
    pairs the value is returned (lube/heap.cpp:427).  Scalars and nil have no heap and no elements here. -/
def elems : Val → List Val
  | chars s => s.map char
  | ints xs => xs.map int
  | longs xs => xs.map long
  | floats xs => xs.map float
  | doubles xs => xs.map double
  | cfloats xs => xs.map (fun p => cfloat p.1 p.2)
  | cdoubles xs => xs.map (fun p => cdoubles [p])
  | arr xs => xs
  | map ps => ps.map Prod.snd
  | _ => []

/-- `var::size()` (lube/var.cpp:608-615). -/
def size (v : Val) : Nat :=
  if v.type = 0 then v.elems.length else 1

/-- `var::defined()` (lube/var.cpp:600-605). -/
def defined : Val → Bool
  | nil => false
  | _ => true

end Val

/-- `std::strcmp` on the bytes before the terminators; bytes compare as `unsigned char`. -/
def strcmp : Bytes → Bytes → Int
  | [], [] => 0
  | [], _ :: _ => -1
  | _ :: _, [] => 1
  | x :: xs, y :: ys => if x = y then strcmp xs ys else if x < y then -1 else 1

/-- The loop of `Heap::neq` (lube/heap.cpp:450-453) over the elements of the two heaps; both
    have the same size because `operator!=` has compared sizes (lube/var.cpp:512), so running
    out of the second list first would be the `range_error` of `Heap::at`. -/
def neqLoop (neq : Val → Val → Outcome Bool) : List Val → List Val → Outcome Bool
  | [], _ => .ok false
  | _ :: _, [] => .thrown (.rangeError "Heap::at(): index out of bounds")
  | x :: xs, y :: ys => do
    if ← neq x y then .ok true else neqLoop neq xs ys

/-- The loop of `Heap::lt` (lube/heap.cpp:461-464), up to the shorter size. -/
def ltLoop (lt : Val → Val → Outcome Bool) : List Val → List Val → Outcome Bool
  | x :: xs, y :: ys => do
    if ← lt x y then .ok true else ltLoop lt xs ys
  | _, _ => .ok false

/-- `var::operator!=` (lube/var.cpp:508-538) with `Heap::neq` (lube/heap.cpp:448-454).  The
    number is the call depth granted; exceeding it is `diverge`.  `heap()->neq(..)` with a null
    `heap()` is undefined; with a null argument the argument is used only inside the loop, so
    never (both sizes are 0). -/
def neq : Nat → Val → Val → Outcome Bool
  | 0, _, _ => .diverge
  | n + 1, a, b =>
    if a.type ≠ b.type then .ok true
    else if a.size ≠ b.size then .ok true
    else match a, b with
      | .char x, .char y => .ok (x != y)
      | .int x, .int y => .ok (x != y)
      | .long x, .long y => .ok (x != y)
      | .float x, .float y => .ok (!Ieee.eq (Ieee.val32 x) (Ieee.val32 y))
      | .double x, .double y => .ok (!Ieee.eq (Ieee.val64 x) (Ieee.val64 y))
      | .cfloat r i, .cfloat r' i' =>
        .ok (!(Ieee.eq (Ieee.val32 r) (Ieee.val32 r') && Ieee.eq (Ieee.val32 i) (Ieee.val32 i')))
      | a, b =>
        if !a.hasHeap then .ub .nullDeref
        else neqLoop (neq n) a.elems b.elems

/-- `var::operator==` (lube/var.h:101). -/
def eq (n : Nat) (a b : Val) : Outcome Bool := do
  .ok (!(← neq n a b))

/-- `var::operator<` (lube/var.cpp:546-575) with `Heap::lt` (lube/heap.cpp:457-465).  A null
    `heap()` on either side is dereferenced (`heap()->lt`, `iHeap->type()`, `iHeap->size()`).
    `std::strcmp` reads both character arrays up to their terminators. -/
def lt : Nat → Val → Val → Outcome Bool
  | 0, _, _ => .diverge
  | n + 1, a, b =>
    if a.type ≠ b.type then .ok (decide (a.type < b.type))
    else match a, b with
      | .char x, .char y => .ok (decide (x.toBitVec.toInt < y.toBitVec.toInt))
      | .int x, .int y => .ok (decide (x.toInt < y.toInt))
      | .long x, .long y => .ok (decide (x.toInt < y.toInt))
      | .float x, .float y => .ok (Ieee.lt (Ieee.val32 x) (Ieee.val32 y))
      | .double x, .double y => .ok (Ieee.lt (Ieee.val64 x) (Ieee.val64 y))
      | .cfloat r i, .cfloat r' i' =>
        .ok (Ieee.lt (Ieee.val32 (cabsf r i)) (Ieee.val32 (cabsf r' i')))
      | a, b =>
        if !a.hasHeap || !b.hasHeap then .ub .nullDeref
        else match a, b with
          | .chars s, .chars t => .ok (decide (strcmp (cstr s) (cstr t) < 0))
          | a, b => ltLoop (lt n) a.elems b.elems

/-- The loop of `var::binary` (lube/var.cpp:1338-1346); `cmp pos` is `x < iData` for the key or
    element at `pos`.  `lo ≤ hi` holds throughout, so `lo != hi` is `lo < hi`.  Also counts the
    comparisons. -/
def binaryLoop (cmp : Nat → Outcome Bool) (lo hi : Nat) : Outcome (Nat × Nat) :=
  if _h : lo < hi then
    let pos := (hi - lo) / 2 + lo
    match cmp pos with
    | .ok true => do
      let (r, k) ← binaryLoop cmp (pos + 1) hi
      .ok (r, k + 1)
    | .ok false => do
      let (r, k) ← binaryLoop cmp lo pos
      .ok (r, k + 1)
    | .thrown e => .thrown e
    | .ub r => .ub r
    | .abort => .abort
    | .diverge => .diverge
  else .ok (hi, 0)
termination_by hi - lo
decreasing_by all_goals omega

/-- `var::binary` (lube/var.cpp:1329-1348) over the list of elements, or of keys if the array is
    a map (1341).  Result: position and number of comparisons. -/
def binaryCount (n : Nat) (xs : List Val) (k : Val) : Outcome (Nat × Nat) :=
  if xs.length = 0 then .ok (0, 0)
  else binaryLoop (fun pos =>
    match xs[pos]? with
    | some x => lt n x k
    | none => .ub .outOfBounds) 0 xs.length

/-- `var::binary` (lube/var.cpp:1329-1348), position only. -/
def binary (n : Nat) (xs : List Val) (k : Val) : Outcome Nat := do
  let (r, _) ← binaryCount n xs k
  .ok r

/-- `var::insert` into an array of vars (lube/var.cpp:1106-1116): grow by one, move the tail up
    element by element, store. -/
def insertVar (xs : List Val) (x : Val) (i : Nat) : Outcome (List Val) :=
  if i > xs.length then .thrown (.rangeError "insert(): index too large")
  else .ok (xs.take i ++ x :: xs.drop i)

/-- The loop of `var::sort` (lube/var.cpp:1185-1189): `r` is an array of vars
    (`presize` of a nil var, 1227-1234 and 927-930). -/
def sortLoop (n : Nat) (r : List Val) : List Val → Outcome (List Val)
  | [] => .ok r
  | x :: xs => do
    let p ← binary n r x
    let r ← insertVar r x p
    sortLoop n r xs

/-- What `var::at(int)` ranges over for `i < size()` (lube/var.cpp:808-819): the elements, or the
    scalar itself. -/
def Val.items (v : Val) : List Val := if v.type = 0 then v.elems else [v]

/-- The comparison `x < iData` (lube/var.cpp:546-549) of an element `x` of an array of vars with `iData` a reference to an element
    of an array of cdouble: the reference has the type `TYPE_CDOUBLE`, 7 (lube/heap.cpp:139-143), which is the type of no var. -/
def ltCdoubleRef (x : Val) : Outcome Bool :=
  if x.type ≠ 7 then .ok (decide (x.type < 7)) else .ub .typePun

/-- `r.binary(at(i))` (lube/var.cpp:1329-1348) for an array of vars `r` and a reference to an element of an array of cdouble. -/
def binaryCdouble (r : List Val) : Outcome Nat :=
  if r.length = 0 then .ok 0
  else do
    let (i, _) ← binaryLoop (fun pos =>
      match r[pos]? with
      | some x => ltCdoubleRef x
      | none => .ub .outOfBounds) 0 r.length
    .ok i

/-- The loop of `var::sort` (lube/var.cpp:1185-1189) for an array of cdouble; what is stored in `r` is an array of one number
    (1313-1316). -/
def sortCdouble (r : List Val) : List (BitVec 64 × BitVec 64) → Outcome (List Val)
  | [] => .ok r
  | p :: xs => do
    let i ← binaryCdouble r
    let r ← insertVar r (.cdoubles [p]) i
    sortCdouble r xs

/-- `var::sort` (lube/var.cpp:1181-1191). -/
def sort (n : Nat) (v : Val) : Outcome Val :=
  match v with
  | .cdoubles xs => do
    let r ← sortCdouble [] xs
    .ok (.arr r)
  | v => do
    let r ← sortLoop n [] v.items
    .ok (.arr r)

/-- The search loop of `var::index` on anything but a map (lube/var.cpp:1209-1211). -/
def indexLoop (n : Nat) (k : Val) (i : Nat) : List Val → Outcome Int
  | [] => .ok (-1)
  | x :: xs => do
    if ← eq n x k then .ok i else indexLoop n k (i + 1) xs

/-- The search loop of `var::index` (lube/var.cpp:1209-1211) on an array of cdouble: a reference to an element has the type
    `TYPE_CDOUBLE`, 7 (lube/heap.cpp:139-143), and `k`, which is no reference, is compared with it (lube/var.cpp:510-511). -/
def indexCdouble (k : Val) (i : Nat) : List (BitVec 64 × BitVec 64) → Outcome Int
  | [] => .ok (-1)
  | _ :: xs => if 7 ≠ k.type then indexCdouble k (i + 1) xs else .ok i

/-- `var::index` (lube/var.cpp:1194-1214). -/
def index (n : Nat) (v k : Val) : Outcome Int :=
  match v with
  | .nil => .ok (-1)
  | .map ps => do
    let i ← binary n (ps.map Prod.fst) k
    match ps[i]? with
    | none => .ok (-1)
    | some p => do
      if ← eq n p.1 k then .ok i else .ok (-1)
  | .cdoubles xs => indexCdouble k 0 xs
  | v => indexLoop n k 0 v.items

end Libube

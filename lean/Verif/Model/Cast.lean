import Mathlib.Data.Nat.Digits.Defs
import Verif.Model.Value

/-! # Conversions between types and `var::push` (lube/var.cpp) -/

namespace Libube

open CString

/-- Decimal digits of a number, most significant first (`std::ostream << int` and `<< long`;
    used at lube/json.cpp:261 and 264). -/
def showNat (n : Nat) : Bytes :=
  if n = 0 then [48] else (Nat.digits 10 n).reverse.map (fun d => UInt8.ofNat (48 + d))

/-- Decimal text of an integer (`std::ostream << int`, `<< long`; lube/json.cpp:261, 264). -/
def showInt (i : Int) : Bytes :=
  if i < 0 then 45 :: showNat i.natAbs else showNat i.natAbs

/-- `std::isdigit`. -/
def isdigit (b : UInt8) : Bool := 48 ≤ b && b ≤ 57

/-- The number denoted by decimal digits. -/
def digitsVal (s : Bytes) : Nat := s.foldl (fun a b => a * 10 + (b.toNat - 48)) 0

/-- The optional sign of a number: whether it is negative, and the text behind the sign (part of
    `istream >> n`, used at lube/json.cpp:169 and lube/var.cpp:665). -/
def splitSign : Bytes → Bool × Bytes
  | 45 :: t => (true, t)
  | 43 :: t => (false, t)
  | t => (false, t)

/-- What `istream >> n` extracts from a text for a signed integer type of `w` bits (used at
    lube/json.cpp:169 and lube/var.cpp:665): white space, an optional sign and the longest run of
    digits; `none` (`failbit`) if there is no digit or the number does not fit.  What follows the
    digits is left in the stream. -/
def readNum (w : Nat) (s : Bytes) : Option (BitVec w) :=
  let (neg, ds) := splitSign (s.dropWhile isspace)
  let ds := ds.takeWhile isdigit
  if ds = [] then none
  else
    let v : Int := if neg then -(digitsVal ds : Int) else digitsVal ds
    if -(2 ^ (w - 1) : Int) ≤ v ∧ v < (2 ^ (w - 1) : Int) then some (BitVec.ofInt w v) else none

/-- What `istream >> double` makes of a text that is not blank: nothing is assumed about it
    (lube/json.cpp:177, lube/var.cpp:665). -/
opaque readDoubleText (s : Bytes) : Option (BitVec 64)

/-- `istream >> double` (lube/json.cpp:177, lube/var.cpp:665): `none` is failure, which is
    certain if there is nothing to read. -/
def readDouble (s : Bytes) : Option (BitVec 64) :=
  if s.dropWhile isspace = [] then none else readDoubleText s

/-- `istream >> float` (lube/var.cpp:665). -/
opaque readFloat (s : Bytes) : Option (BitVec 32)

/-- Conversion of a number to `double` by `static_cast` (lube/var.cpp:676-695); nothing is
    assumed about the result. -/
opaque roundDouble (v : Val) : BitVec 64

/-- Conversion of a number to `float` by `static_cast` (lube/var.cpp:676-695). -/
opaque roundFloat (v : Val) : BitVec 32

/-- `static_cast` from a floating point number, given in units of 2^-`scale`, to a signed integer
    of `w` bits (lube/var.cpp:685-695): truncation; undefined if the result does not fit
    (C++17 [conv.fpint]). -/
def truncate (w scale : Nat) : Option Int → Outcome (BitVec w)
  | none => .ub .overflow
  | some x =>
    let t := x.tdiv (2 ^ scale)
    if -(2 ^ (w - 1) : Int) ≤ t ∧ t < (2 ^ (w - 1) : Int) then .ok (BitVec.ofInt w t)
    else .ub .overflow

/-- `static_cast` of a scalar var to a signed integer type of `w` bits (lube/var.cpp:676-695);
    integers are taken modulo 2^w. -/
def scalarToInt (w : Nat) : Val → Outcome (BitVec w)
  | .char c => .ok (c.toBitVec.signExtend w)
  | .int i => .ok (i.signExtend w)
  | .long l => .ok (l.signExtend w)
  | .float f => truncate w 149 (Ieee.val32 f)
  | .double d => truncate w 1074 (Ieee.val64 d)
  | .cfloat re _ => truncate w 149 (Ieee.val32 re)
  | _ => .ub .typePun

/-- `Cast<T>::scalar` (lube/var.cpp:647-700) applied to one element while casting an array
    (lube/func.cpp:104-109): a string is read as a number (lube/var.cpp:659-668), an array is broadcast into
    an element that is still nil, which throws unless there is nothing to do
    (lube/var.cpp:812-813). -/
def castElem {α} (ofScalar : Val → Outcome α) (ofText : Bytes → Option α) (x : Val) : Outcome Unit :=
  match x with
  | .chars s => match ofText s with
    | some _ => .ok ()
    | none => .thrown .ioFailure
  | x =>
    if x.type = 0 then
      if x.elems.isEmpty then .ok () else .thrown (.error "var::at(): uninitialised")
    else do
      let _ ← ofScalar x
      .ok ()

/-- The elements of an array cast one after the other (lube/func.cpp:104-109). -/
def castElems {α} (ofScalar : Val → Outcome α) (ofText : Bytes → Option α) :
    List Val → Outcome Unit
  | [] => .ok ()
  | x :: xs => do
    castElem ofScalar ofText x
    castElems ofScalar ofText xs

/-- `var::cast<T>()` (lube/var.cpp:129-149, 647-700) of a scalar, a string or another array.
    The cast of an array other than a string is again an array, of which `get<T>()` then reads
    the heap pointer as if it were a number (lube/var.cpp:34-49): undefined; likewise nil.  The
    elements of an array of `cdouble` are cast by their real parts (694-696).  Not for `T` =
    `cdouble`. -/
def castTo {α} (ofScalar : Val → Outcome α) (ofText : Bytes → Option α) (x : Val) : Outcome α :=
  match x with
  | .chars s => match ofText s with
    | some a => .ok a
    | none => .thrown .ioFailure
  | .cdoubles xs => do
    castElems ofScalar ofText (xs.map fun p => .double p.1)
    .ub .typePun
  | x =>
    if x.type = 0 then do
      castElems ofScalar ofText x.elems
      .ub .typePun
    else ofScalar x

/-- `cast<char>()` (lube/var.cpp:129-131). -/
def castChar : Val → Outcome UInt8 :=
  castTo (fun x => do let b ← scalarToInt 8 x; .ok ⟨b⟩) (fun s => (s.dropWhile isspace).head?)

/-- `cast<int>()` (lube/var.cpp:132-134). -/
def castInt : Val → Outcome (BitVec 32) := castTo (scalarToInt 32) (readNum 32)

/-- `cast<long>()` (lube/var.cpp:135-137). -/
def castLong : Val → Outcome (BitVec 64) := castTo (scalarToInt 64) (readNum 64)

/-- `cast<float>()` (lube/var.cpp:138-140). -/
def castFloat : Val → Outcome (BitVec 32) :=
  castTo (fun x => .ok (match x with | .float f => f | x => roundFloat x)) readFloat

/-- `cast<double>()` (lube/var.cpp:141-143). -/
def castDouble : Val → Outcome (BitVec 64) :=
  castTo (fun x => .ok (match x with | .double d => d | x => roundDouble x)) readDouble

/-- `cast<cfloat>()` (lube/var.cpp:144-146); text is taken to hold a real number. -/
def castCFloat : Val → Outcome (BitVec 32 × BitVec 32) :=
  castTo (fun x => .ok (match x with | .cfloat r i => (r, i) | x => (roundFloat x, 0)))
    (fun s => (readFloat s).map (·, 0))

/-- `cast<cdouble>()` (lube/var.cpp:147-149, 647-700, 53-60): a number is converted.  A `cdouble` is an
    array, so every array, also a string, has the type wanted (652); `get<cdouble>()` takes the first
    element for a `cdouble`. -/
def castCDouble : Val → Outcome (BitVec 64 × BitVec 64)
  | .nil => .ub .nullDeref
  | .cdoubles (p :: _) => .ok p
  | .cdoubles [] => .ub .outOfBounds
  | .double d => .ok (d, 0)
  | x => if x.type = 0 then .ub .typePun else .ok (roundDouble x, 0)

/-- `var::push` (lube/var.cpp:1066-1089) as a function of the values; the variable pushed to is
    neither a reference nor a view, and shares its heap with no other variable.  nil becomes the
    scalar (1073-1078), or else an array of vars (`Heap(1, TYPE_ARRAY)`, lube/heap.cpp:83); a
    scalar becomes a dense array (lube/var.cpp:931-937); a dense array casts the new element
    (286-308); a map gets a pair with nil key (312-314). -/
def push (a x : Val) : Outcome Val :=
  match a with
  | .nil => if x.type ≠ 0 then .ok x else .ok (.arr [x])
  | .char c => match x with
    | .char d => .ok (.chars [c, d])
    | _ => .thrown (.error "push(): Incompatible types")
  | .int c => match x with
    | .int d => .ok (.ints [c, d])
    | _ => .thrown (.error "push(): Incompatible types")
  | .long c => match x with
    | .long d => .ok (.longs [c, d])
    | _ => .thrown (.error "push(): Incompatible types")
  | .float c => match x with
    | .float d => .ok (.floats [c, d])
    | _ => .thrown (.error "push(): Incompatible types")
  | .double c => match x with
    | .double d => .ok (.doubles [c, d])
    | _ => .thrown (.error "push(): Incompatible types")
  | .cfloat c c' => match x with
    | .cfloat d d' => .ok (.cfloats [(c, c'), (d, d')])
    | _ => .thrown (.error "push(): Incompatible types")
  | .chars s => do let y ← castChar x; .ok (.chars (s ++ [y]))
  | .ints s => do let y ← castInt x; .ok (.ints (s ++ [y]))
  | .longs s => do let y ← castLong x; .ok (.longs (s ++ [y]))
  | .floats s => do let y ← castFloat x; .ok (.floats (s ++ [y]))
  | .doubles s => do let y ← castDouble x; .ok (.doubles (s ++ [y]))
  | .cfloats s => do let y ← castCFloat x; .ok (.cfloats (s ++ [y]))
  | .cdoubles s => do let y ← castCDouble x; .ok (.cdoubles (s ++ [y]))
  | .arr xs => .ok (.arr (xs ++ [x]))
  | .map ps => .ok (.map (ps ++ [(.nil, x)]))

end Libube

import Verif.Model.Dft

/-! # The discrete Fourier transform with the MKL (lube/dft-mkl.cpp, lube/dft.h)

The functions of the library are parameters; arithmetic is that of a field.  Input and output do not share storage unless they are
the same var.  `Dft.Data` are the vars given to the functor; arrays of double precision numbers are among `other` there. -/

namespace Libube.DftMkl

open View Transpose Rows Reduce Dft

/-- The library: the error of making a transform of a given size, if any (lube/dft-mkl.cpp:32-37, 64-99), and what
    `DftiComputeForward` and `DftiComputeBackward` compute in single precision from what they read (159-227).  Errors when computing are
    not modelled. -/
structure Dfti (ρ κ : Type) where
  error : Nat → Option String
  forwardC : Nat → List κ → List κ
  backwardC : Nat → List κ → List κ
  forwardR : Nat → List ρ → List κ
  backwardR : Nat → List κ → List ρ

/-- The types of the input of a forward transform that the constructor accepts (lube/dft-mkl.cpp:59-91). -/
inductive Fwd where
  | float | double | cfloat
deriving DecidableEq

/-- `DFTImpl` (lube/dft-mkl.cpp:19-26); `size` is kept in the descriptor. -/
structure Impl where
  size : Nat
  fwd : Fwd
  oSize : Nat
  inverse : Bool
deriving DecidableEq

/-- `dftiCheck` (lube/dft-mkl.cpp:32-37) after the constructor of the library (lube/dft-mkl.cpp:92-99). -/
def check (M : Dfti ρ κ) (size : Nat) (d : Impl) : Outcome Impl :=
  match M.error size with
  | some e => .thrown (.error e)
  | none => .ok d

/-- The constructor (lube/dft-mkl.cpp:47-100) with the type of a number.  A number of type `cdouble` is kept as an array of one element
    (lube/var.cpp:409-413), and `var::type()` is that of an array (622-627), so line 82 is never reached.  Sizes that are
    negative are not modelled, nor that memory can run out. -/
def make (M : Dfti ρ κ) (size : Nat) (inverse : Bool) (t : Kind) : Outcome Impl :=
  match t with
  | .float => check M size ⟨size, .float, if inverse then size else size / 2 + 1, inverse⟩
  | .double => check M size ⟨size, .double, if inverse then size else size / 2 + 1, inverse⟩
  | .cfloat => check M size ⟨size, .cfloat, size, inverse⟩
  | _ => .thrown (.error "DFTBase::DFTBase: Unknown type")

/-- `var::atype()` (lube/var.cpp:634-643) of anything but a number. -/
def atype : Data ρ κ → Outcome Kind
  | .nil => .thrown (.error "var::atype(): Undefined")
  | .float _ => .ok .float
  | .cfloat _ => .ok .cfloat
  | .other k _ => .ok k
  | .number => .ok .var

/-- `forwardType.type()` (lube/dft-mkl.cpp:55). -/
def fwdType (d : Impl) : Option Kind :=
  match d.fwd with
  | .float => some .float
  | .double => some .double
  | .cfloat => some .cfloat

/-- `inverseType.type()` (lube/dft-mkl.cpp:62, 69, 76): a `cdouble` is an array; `none` is the type of an array, which is not the type of
    the elements of any. -/
def invType (d : Impl) : Option Kind :=
  match d.fwd with
  | .float | .cfloat => some .cfloat
  | .double => none

/-- The type of the input (lube/dft-mkl.cpp:127-130). -/
def inType (d : Impl) : Option Kind := if d.inverse then invType d else fwdType d

/-- The type of the output (lube/dft-mkl.cpp:132-135). -/
def outType (d : Impl) : Option Kind := if d.inverse then fwdType d else invType d

/-- `DFTBase::alloc` (lube/dft-mkl.cpp:110-118); `junkR`, `junkC` and `junkD` are what the new array holds.  In double precision the
    new array of a forward transform shares its elements with `inverseType` (lube/var.cpp:1399-1408), which is not modelled. -/
def alloc (d : Impl) (junkR : List ρ) (junkC : List κ) (junkD : List Unit) (x : Data ρ κ) : Outcome (Data ρ κ) := do
  let s ← shapeOf x
  let s ← ipSet s (s.length - 1) d.oSize
  match d.inverse, d.fwd with
  | true, .float => do
    let a ← newView s junkR
    .ok (.float a)
  | true, .double => do
    let a ← newView s junkD
    .ok (.other .double a)
  | false, .double => do
    let a ← newView s junkD
    .ok (.other .cdouble a)
  | true, .cfloat | false, .float | false, .cfloat => do
    let a ← newView s junkC
    .ok (.cfloat a)

/-- `DFTBase::scalar` behind the checks (lube/dft-mkl.cpp:138-143) with `DFTBase::vector` (146-228).  The checks leave no other
    combination of types, and none for double precision. -/
def run [Field ρ] [Field κ] (M : Dfti ρ κ) (d : Impl) (x o : Data ρ κ) : Outcome (Data ρ κ) :=
  match d.inverse, d.fwd, x, o with
  | false, .float, .float a, .cfloat b => do
    let y ← broadcastTo (vector (some d.size) (fun n => n) M.forwardR a b) a b
    .ok (.cfloat ⟨y, b.ip⟩)
  | false, .cfloat, .cfloat a, .cfloat b => do
    let y ← broadcastTo (vector (some d.size) (fun n => n) M.forwardC a b) a b
    .ok (.cfloat ⟨y, b.ip⟩)
  | true, .float, .cfloat a, .float b => do
    let y ← broadcastTo (vector (some d.size) (fun n => n / 2 + 1) M.backwardR a b) a b
    let y ← divide d.oSize ⟨y, b.ip⟩
    .ok (.float ⟨y, b.ip⟩)
  | true, .cfloat, .cfloat a, .cfloat b => do
    let y ← broadcastTo (vector (some d.size) (fun n => n) M.backwardC a b) a b
    let y ← divide d.oSize ⟨y, b.ip⟩
    .ok (.cfloat ⟨y, b.ip⟩)
  | _, _, _, o => .ok o

/-- `DFTBase::scalar` (lube/dft-mkl.cpp:120-144). -/
def scalar [Field ρ] [Field κ] (M : Dfti ρ κ) (d : Impl) (x o : Data ρ κ) : Outcome (Data ρ κ) :=
  match x, o with
  | .number, _ => .thrown (.error "DFTBase::scalar: DFTBase input must be vector")
  | _, .number => .thrown (.error "DFTBase::scalar: DFTBase output must be vector")
  | x, o => do
    let t ← atype x
    if some t ≠ inType d then .thrown (.error "DFTBase::scalar: wrong input type")
    else do
      let u ← atype o
      if some u ≠ outType d then .thrown (.error "DFTBase::scalar: wrong output type")
      else run M d x o

/-- `f(x)` (lube/func.cpp:32-37). -/
def call [Field ρ] [Field κ] (M : Dfti ρ κ) (d : Impl) (junkR : List ρ) (junkC : List κ) (junkD : List Unit) (x : Data ρ κ) : Outcome (Data ρ κ) := do
  let o ← alloc d junkR junkC junkD x
  scalar M d x o

/-- `f(x, o)` with `o` not sharing storage with `x` (lube/func.cpp:44-48): what `o` is afterwards. -/
def callInto [Field ρ] [Field κ] (M : Dfti ρ κ) (d : Impl) (x o : Data ρ κ) : Outcome (Data ρ κ) := scalar M d x o

/-- `f(x, x)` (lube/func.cpp:44-48, lube/dft-mkl.cpp:120-152): behind the checks only arrays of complex numbers are left, and
    `vector` throws. -/
def callSelf (d : Impl) (x : Data ρ κ) : Outcome (Data ρ κ) :=
  match x with
  | .number => .thrown (.error "DFTBase::scalar: DFTBase input must be vector")
  | x => do
    let t ← atype x
    if some t ≠ inType d then .thrown (.error "DFTBase::scalar: wrong input type")
    else if some t ≠ outType d then .thrown (.error "DFTBase::scalar: wrong output type")
    else match x with
      | .cfloat a => do
        let y ← broadcastTo (fun _ _ _ => .thrown (.error "DFTBase::vector(): not implemented")) a a
        .ok (.cfloat ⟨y, a.ip⟩)
      | x => .ok x

end Libube.DftMkl

import Verif.Model.Reduce
import Mathlib.Algebra.Field.Defs

/-! # The discrete Fourier transform (lube/dft-kiss.cpp, lube/dft.h)

The functions of the Kiss FFT library are parameters; arithmetic is that of a field here, not floating point.
Input and output do not share storage unless they are the same var. -/

namespace Libube.Dft

open View Transpose Rows Reduce

/-- What `kiss_fft` (forward and inverse), `kiss_fftr` and `kiss_fftri` compute from what they read, for a given size
    (called at lube/dft-kiss.cpp:148-188).  `ρ` are the real and `κ` the complex numbers. -/
structure Kiss (ρ κ : Type) where
  fft : Nat → List κ → List κ
  ifft : Nat → List κ → List κ
  fftr : Nat → List ρ → List κ
  fftri : Nat → List κ → List ρ

/-- The types of the input of a forward transform that the constructor accepts (lube/dft-kiss.cpp:60-84). -/
inductive Fwd where
  | float | cfloat
deriving DecidableEq

/-- `DFTImpl` (lube/dft-kiss.cpp:27-34); no `config` is a null pointer.  `inverseType` is always `cfloat` (63, 74). -/
structure Impl where
  config : Option Nat
  fwd : Fwd
  oSize : Nat
  inverse : Bool
deriving DecidableEq

/-- The constructor (lube/dft-kiss.cpp:47-88).  `kiss_fftr_alloc` returns a null pointer for odd sizes.  Sizes that are
    negative are not modelled, nor that memory can run out. -/
def make (size : Nat) (inverse : Bool) (t : Kind) : Outcome Impl :=
  match t with
  | .float => .ok ⟨if size % 2 = 0 then some size else none, .float, if inverse then size else size / 2 + 1, inverse⟩
  | .cfloat => .ok ⟨some size, .cfloat, size, inverse⟩
  | .double | .cdouble => .thrown (.error "DFTBase::DFTBase: Kiss FFT float only")
  | _ => .thrown (.error "DFTBase::DFTBase: Unknown type")

/-- A var given to the functor: nil, a number, an array of real or complex single precision numbers, or an array of another
    type (lube/var.h:202-216). -/
inductive Data (ρ κ : Type) where
  | nil
  | number
  | float (a : Arr ρ)
  | cfloat (a : Arr κ)
  | other (k : Kind) (a : Arr Unit)

/-- `var::shape()` (lube/var.cpp:1462-1468, 1475-1484): nil has size 0, a number size 1 (608-615). -/
def shapeOf : Data ρ κ → Outcome (List Int)
  | .nil => .ok [0]
  | .number => .ok [1]
  | .float a => shapeLoop a 0 (dim a)
  | .cfloat a => shapeLoop a 0 (dim a)
  | .other _ a => shapeLoop a 0 (dim a)

/-- `var::atype()` (lube/var.cpp:634-643) of anything but a number. -/
def atype : Data ρ κ → Outcome (Option Fwd)
  | .nil => .thrown (.error "var::atype(): Undefined")
  | .float _ => .ok (some .float)
  | .cfloat _ => .ok (some .cfloat)
  | .number | .other _ _ => .ok none

/-- The type of the input (lube/dft-kiss.cpp:117-121). -/
def inType (d : Impl) : Fwd := if d.inverse then .cfloat else d.fwd

/-- The type of the output (lube/dft-kiss.cpp:106, 122-126). -/
def outType (d : Impl) : Fwd := if d.inverse then d.fwd else .cfloat

/-- `DFTBase::alloc` (lube/dft-kiss.cpp:100-108); `junkR` and `junkC` are what the new array holds. -/
def alloc (d : Impl) (junkR : List ρ) (junkC : List κ) (x : Data ρ κ) : Outcome (Data ρ κ) := do
  let s ← shapeOf x
  let s ← ipSet s (s.length - 1) d.oSize
  match outType d with
  | .float => do
    let a ← newView s junkR
    .ok (.float a)
  | .cfloat => do
    let a ← newView s junkC
    .ok (.cfloat a)

/-- The library reads `n` elements from `p + i` on. -/
def readRow (src : List α) (p : Int) (i : Nat) : Nat → Outcome (List α)
  | 0 => .ok []
  | n + 1 => do
    let x ← load src (p + i)
    let r ← readRow src p (i + 1) n
    .ok (x :: r)

/-- The library writes elements from `q + i` on. -/
def writeRow (q : Int) (i : Nat) : List α → List α → Outcome (List α)
  | [], dst => .ok dst
  | x :: xs, dst => do
    let dst ← store dst (q + i) x
    writeRow q (i + 1) xs dst

/-- One call of the library (lube/dft-kiss.cpp:148-152, 158-162, 174-178, 184-188): `cnt n` elements are read for a transform
    of size `n`.  Neither the input nor the output is known to the library to be shorter. -/
def vector (cfg : Option Nat) (cnt : Nat → Nat) (f : Nat → List α → List β) (a : Arr α) (out : Arr β) (offI offO : Int)
    (dst : List β) : Outcome (List β) := do
  let p ← offset a
  let q ← offset out
  match cfg with
  | none => .ub .nullDeref
  | some n => do
    let row ← readRow a.data (p + offI) 0 (cnt n)
    writeRow (q + offO) 0 (f n row) dst

/-- Dividing `n` elements from `p + i` on (lube/func.cpp:264-273, lube/math.cpp:768-776). -/
def divLoop [Field α] (c : α) (p : Int) (i : Nat) : Nat → List α → Outcome (List α)
  | 0, d => .ok d
  | n + 1, d => do
    let x ← load d (p + i)
    let d ← store d (p + i) (x / c)
    divLoop c p (i + 1) n d

/-- `oVar /= oSize` (lube/dft-kiss.cpp:132-133, lube/var.h:108). -/
def divide [Field α] (n : Nat) (out : Arr α) : Outcome (List α) := do
  let p ← offset out
  let s ← size out
  divLoop (n : α) p 0 s.toNat out.data

/-- `DFTBase::scalar` behind the checks (lube/dft-kiss.cpp:128-133) with `DFTBase::vector` (136-196).  The checks leave no
    other combination of types. -/
def run [Field ρ] [Field κ] (K : Kiss ρ κ) (d : Impl) (x o : Data ρ κ) : Outcome (Data ρ κ) :=
  match d.inverse, d.fwd, x, o with
  | false, .float, .float a, .cfloat b => do
    let y ← broadcastTo (vector d.config (fun n => n) K.fftr a b) a b
    .ok (.cfloat ⟨y, b.ip⟩)
  | false, .cfloat, .cfloat a, .cfloat b => do
    let y ← broadcastTo (vector d.config (fun n => n) K.fft a b) a b
    .ok (.cfloat ⟨y, b.ip⟩)
  | true, .float, .cfloat a, .float b => do
    let y ← broadcastTo (vector d.config (fun n => n / 2 + 1) K.fftri a b) a b
    let y ← divide d.oSize ⟨y, b.ip⟩
    .ok (.float ⟨y, b.ip⟩)
  | true, .cfloat, .cfloat a, .cfloat b => do
    let y ← broadcastTo (vector d.config (fun n => n) K.ifft a b) a b
    let y ← divide d.oSize ⟨y, b.ip⟩
    .ok (.cfloat ⟨y, b.ip⟩)
  | _, _, _, o => .ok o

/-- `DFTBase::scalar` (lube/dft-kiss.cpp:110-134). -/
def scalar [Field ρ] [Field κ] (K : Kiss ρ κ) (d : Impl) (x o : Data ρ κ) : Outcome (Data ρ κ) :=
  match x, o with
  | .number, _ => .thrown (.error "DFTBase::scalar: DFTBase input must be vector")
  | _, .number => .thrown (.error "DFTBase::scalar: DFTBase output must be vector")
  | x, o => do
    let t ← atype x
    if t ≠ some (inType d) then .thrown (.error "DFTBase::scalar: wrong input type")
    else do
      let u ← atype o
      if u ≠ some (outType d) then .thrown (.error "DFTBase::scalar: wrong output type")
      else run K d x o

/-- `f(x)` (lube/func.cpp:32-37). -/
def call [Field ρ] [Field κ] (K : Kiss ρ κ) (d : Impl) (junkR : List ρ) (junkC : List κ) (x : Data ρ κ) : Outcome (Data ρ κ) := do
  let o ← alloc d junkR junkC x
  scalar K d x o

/-- `f(x, o)` with `o` not sharing storage with `x` (lube/func.cpp:44-48): what `o` is afterwards. -/
def callInto [Field ρ] [Field κ] (K : Kiss ρ κ) (d : Impl) (x o : Data ρ κ) : Outcome (Data ρ κ) := scalar K d x o

/-- `f(x, x)` (lube/func.cpp:44-48, lube/dft-kiss.cpp:110-142): behind the checks only arrays of complex numbers are left, and
    `vector` throws. -/
def callSelf (d : Impl) (x : Data ρ κ) : Outcome (Data ρ κ) :=
  match x with
  | .number => .thrown (.error "DFTBase::scalar: DFTBase input must be vector")
  | x => do
    let t ← atype x
    if t ≠ some (inType d) then .thrown (.error "DFTBase::scalar: wrong input type")
    else if t ≠ some (outType d) then .thrown (.error "DFTBase::scalar: wrong output type")
    else match x with
      | .cfloat a => do
        let y ← broadcastTo (fun _ _ _ => .thrown (.error "DFTBase::vector(): not implemented")) a a
        .ok (.cfloat ⟨y, a.ip⟩)
      | x => .ok x

end Libube.Dft

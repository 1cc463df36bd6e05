import Verif.Model.Transpose

/-! # Sound files

libsndfile is replaced by its documented contract (http://www.mega-nerd.com/libsndfile/api.html, cited at
lube/sndfile.cpp:36-38): a frame is one sample of each channel, `sf_readf_float` and `sf_writef_float` count
frames, and samples are interleaved. -/

namespace Libube.Sndfile

open View Transpose

/-- What a sound file holds: `SF_INFO` (lube/sndfile.cpp:43) and the samples, frame after frame. -/
structure File (α : Type) where
  rate : Int
  channels : Nat
  frames : Nat
  samples : List α
  deriving DecidableEq

/-- A `var` of floats: a number or an array (lube/var.cpp:54-58). -/
inductive Sound (α : Type) where
  | num (x : α)
  | arr (a : Arr α)
  deriving DecidableEq

/-- `sf_readf_float(snd, ptr, n)` (lube/sndfile.cpp:54), right after opening: as many frames as there are,
    at most `n`, each with all its samples. -/
def readFrames (f : File α) (buf : List α) (n : Nat) : Outcome (Nat × List α) :=
  let got := min n f.frames
  let xs := f.samples.take (got * f.channels)
  if xs.length > buf.length then .ub .outOfBounds else .ok (got, xs ++ buf.drop xs.length)

/-- `var data = 0.0f; data.resize(size)` (lube/sndfile.cpp:52-53, lube/var.cpp:915-946): a number stays a
    number if the size is 0 or 1.  `junk` is what happens to be in the new memory. -/
def buffer (zero : α) (junk : Nat → α) (size : Nat) : Sound α :=
  if size > 1 then .arr ⟨zero :: (List.range (size - 1)).map junk, none⟩ else .num zero

/-- The floats at `ptr<float>()` (lube/var.cpp:165-175). -/
def Sound.floats : Sound α → List α
  | .num x => [x]
  | .arr a => a.data

/-- The floats replaced. -/
def Sound.withFloats : Sound α → List α → Sound α
  | .num x, xs => .num (xs.head?.getD x)
  | .arr a, xs => .arr ⟨xs, a.ip⟩

/-- The matrix of channels (lube/sndfile.cpp:57-59). -/
def channelRows (fuel : Nat) (f : File α) (data : Sound α) : Outcome (Sound α) :=
  if f.channels = 1 then .ok data
  else
    match data with
    | .num _ => .thrown (.error "var::view: Input not an array")
    | .arr a => do
      let v ← view a [(f.frames : Int), (f.channels : Int)] 0
      let w ← transposeInPlace .float fuel v
      .ok (.arr w)

/-- `sndfile::read` (lube/sndfile.cpp:49-59) with the file open: the rate, which is set as an attribute of the
    caller's (49), and the data.  A size that is no `int` (50) counts as overflow. -/
def readOpen (fuel : Nat) (zero : α) (junk : Nat → α) (f : File α) : Outcome (Int × Sound α) := do
  let size ← cint (f.frames * f.channels)
  let data := buffer zero junk size.toNat
  let (got, xs) ← readFrames f data.floats size.toNat
  if (got : Int) ≠ size then .thrown (.error "sndfile::read: Size")
  else do
    let d ← channelRows fuel f (data.withFloats xs)
    .ok (f.rate, d)

/-- The call and whether it has left a file open: `sf_close` is only called at the end (lube/sndfile.cpp:60). -/
def close (r : Outcome β) : Outcome β × Bool :=
  match r with
  | .ok r => (.ok r, false)
  | r => (r, true)

/-- `sndfile::read` (lube/sndfile.cpp:40-62).  `none` is a file that cannot be opened. -/
def read (fuel : Nat) (zero : α) (junk : Nat → α) : Option (File α) → Outcome (Int × Sound α) × Bool
  | none => (.thrown (.error "sndfile::read: Failed to open file"), false)
  | some f => close (readOpen fuel zero junk f)

/-- `n` floats from location `i` on. -/
def floatsAt (data : List α) (i : Int) : Nat → Outcome (List α)
  | 0 => .ok []
  | n + 1 => do
    let x ← load data i
    let xs ← floatsAt data (i + 1) n
    .ok (x :: xs)

/-- `sf_writef_float(snd, a.ptr<float>(), n)` (lube/sndfile.cpp:80, 83): `n` frames are read from memory.  The
    pointer is taken whatever the type of the elements (lube/var.cpp:165-175), which is undefined but for floats. -/
def writeFrames (k : Kind) (a : Arr α) (channels n : Nat) : Outcome (List α) :=
  if k ≠ .float then .ub .typePun
  else do
    let o ← offset a
    floatsAt a.data o (n * channels)

/-- The samples passed on and their number of frames (lube/sndfile.cpp:75-83). -/
def writeData (k : Kind) (junk : Nat → α) (a : Arr α) (channels : Nat) : Outcome (List α × Int) :=
  if dim a > 1 then do
    let s ← size a
    let tr ← transposeNew k ((List.range s.toNat).map junk) a
    let n ← size tr
    let xs ← writeFrames k tr channels n.toNat
    .ok (xs, n)
  else do
    let n ← size a
    let xs ← writeFrames k a channels n.toNat
    .ok (xs, n)

/-- The number of channels (lube/sndfile.cpp:70): that of the first dimension. -/
def channels (a : Arr α) : Outcome Int := if dim a > 1 then shape a 0 else .ok 1

/-- `sndfile::write` (lube/sndfile.cpp:64-87) of an array, with a file that can be opened and takes what it is given:
    the file as it is afterwards. -/
def write (k : Kind) (junk : Nat → α) (rate : Int) (a : Arr α) : Outcome (File α) := do
  let ch ← channels a
  let (xs, n) ← writeData k junk a ch.toNat
  let s ← size a
  if s ≠ n then .thrown (.error "sndfile::write: Size")
  else .ok ⟨rate, ch.toNat, n.toNat, xs⟩

end Libube.Sndfile

import Verif.Model.Dft

/-! # Functors that own memory (lube/dft.h, lube/dft-kiss.cpp, lube/regex.h, lube/string.cpp)

`DFT` and `IDFT` own a `DFTImpl` and through it the memory of the Kiss FFT library, `Search`, `Match` and `Replace` a `boost::regex`.  None of the classes has a copy
constructor or an assignment, so those of the language copy the pointer.  Blocks of memory are numbered in the order in which they are allocated. -/

namespace Libube.Owning

/-- What a block holds: a `DFTImpl` with its `config`, none if null (lube/dft-kiss.cpp:27-34; the other members are in Model/Dft), what `kiss_fft_alloc` and
    `kiss_fftr_alloc` return, or a `boost::regex`. -/
inductive Block where
  | impl (config : Option Nat)
  | config
  | regex
deriving DecidableEq

/-- A functor: `mImpl` of `DFTBase` (lube/dft.h:40) or `mRE` of `RegExFunctor` (lube/regex.h:28). -/
structure Fun where
  dft : Bool
  ptr : Nat
deriving DecidableEq

abbrev Blocks := List (Option Block)

/-- The blocks, none if freed; the functors, the last the latest; `sInstanceCount` (lube/dft-kiss.cpp:18-21); and for each call of `kiss_fft_cleanup` the number of
    transforms there still were, which the code does not keep. -/
structure State where
  blocks : Blocks
  funs : List Fun
  count : Int
  cleaned : List Nat
deriving DecidableEq

def start : State := ⟨[], [], 0, []⟩

/-- The statements: `DFT f(size, type);` or `IDFT`, `Search f(text);` or the like with a text that is a regular expression or not, `T f = g;`, `f = g;`, a call of a
    functor, and the end of the life of the last one. -/
inductive Op where
  | dft (size : Nat) (inverse : Bool) (t : Kind)
  | regex (valid : Bool)
  | copy (i : Nat)
  | assign (i j : Nat)
  | use (i : Nat)
  | leave
deriving DecidableEq

/-- `DFTBase::DFTBase` (lube/dft-kiss.cpp:47-88).  If it throws there is no functor, no destructor runs and `mImpl` is not deleted; the exception is caught. -/
def makeDft (size : Nat) (inverse : Bool) (t : Kind) (s : State) : State :=
  let p := s.blocks.length
  match Dft.make size inverse t with
  | .ok d =>
    match d.config with
    | some _ => { s with blocks := s.blocks ++ [some (.impl (some (p + 1))), some .config], funs := s.funs ++ [⟨true, p⟩], count := s.count + 1 }
    | none => { s with blocks := s.blocks ++ [some (.impl none)], funs := s.funs ++ [⟨true, p⟩], count := s.count + 1 }
  | _ => { s with blocks := s.blocks ++ [some (.impl none)] }

/-- `RegExFunctor::RegExFunctor` (lube/string.cpp:90-93).  If `boost::regex` throws, `new` gives the memory back. -/
def makeRegex (valid : Bool) (s : State) : State :=
  if valid then { s with blocks := s.blocks ++ [some .regex], funs := s.funs ++ [⟨false, s.blocks.length⟩] } else s

/-- `free` and `delete`. -/
def free (a : Nat) (m : Blocks) : Outcome Blocks :=
  match m[a]? with
  | some (some _) => .ok (m.set a none)
  | some none => .ub .useAfterFree
  | none => .ub .badPointer

/-- Whether a functor is a transform. -/
def transforms (fs : List Fun) : Nat := fs.countP Fun.dft

/-- `DFTBase::~DFTBase` (lube/dft-kiss.cpp:90-98) and `RegExFunctor::~RegExFunctor` (lube/string.cpp:95-100) for a functor `f` that is no longer in `s`.  `free` of a null
    pointer does nothing. -/
def destroy (f : Fun) (s : State) : Outcome State :=
  if f.dft then
    match s.blocks[f.ptr]? with
    | some (some (.impl c)) => do
      let m ← (match c with
        | some a => free a s.blocks
        | none => .ok s.blocks)
      let m ← free f.ptr m
      .ok { s with blocks := m, count := s.count - 1, cleaned := if s.count - 1 = 0 then s.cleaned ++ [transforms s.funs] else s.cleaned }
    | some (some _) => .ub .typePun
    | some none => .ub .useAfterFree
    | none => .ub .badPointer
  else
    match s.blocks[f.ptr]? with
    | some (some .regex) => do
      let m ← free f.ptr s.blocks
      .ok { s with blocks := m }
    | some (some _) => .ub .typePun
    | some none => .ub .useAfterFree
    | none => .ub .badPointer

/-- What a call looks at (lube/dft-kiss.cpp:110-195; lube/string.cpp:241-260, 303-310): the memory of the transform or of the expression.  The result is in
    Model/Dft and Model/StringFns. -/
def use (f : Fun) (m : Blocks) : Outcome Unit :=
  if f.dft then
    match m[f.ptr]? with
    | some (some (.impl (some a))) =>
      match m[a]? with
      | some (some .config) => .ok ()
      | some (some _) => .ub .typePun
      | some none => .ub .useAfterFree
      | none => .ub .badPointer
    | some (some (.impl none)) => .ub .nullDeref
    | some (some _) => .ub .typePun
    | some none => .ub .useAfterFree
    | none => .ub .badPointer
  else
    match m[f.ptr]? with
    | some (some .regex) => .ok ()
    | some (some _) => .ub .typePun
    | some none => .ub .useAfterFree
    | none => .ub .badPointer

/-- One statement.  Copies and assignments are those of the language, which copy the pointer (lube/dft.h:28-41, lube/regex.h:21-29: neither is declared). -/
def step : Op → State → Outcome State
  | .dft n i t, s => .ok (makeDft n i t s)
  | .regex v, s => .ok (makeRegex v s)
  | .copy i, s =>
    match s.funs[i]? with
    | some f => .ok { s with funs := s.funs ++ [f] }
    | none => .ub .outOfBounds
  | .assign i j, s =>
    match s.funs[j]? with
    | some f => .ok { s with funs := s.funs.set i f }
    | none => .ub .outOfBounds
  | .use i, s =>
    match s.funs[i]? with
    | some f => do
      use f s.blocks
      .ok s
    | none => .ub .outOfBounds
  | .leave, s =>
    match s.funs.getLast? with
    | none => .ok s
    | some f => destroy f { s with funs := s.funs.dropLast }

/-- A program. -/
def run : List Op → State → Outcome State
  | [], s => .ok s
  | o :: os, s => do
    let s ← step o s
    run os s

end Libube.Owning

import Verif.Model.DftMkl

/-! # Transforms with the MKL as owners of memory (lube/dft.h, lube/dft-mkl.cpp)

`DFT` and `IDFT` own a `DFTImpl` and through it a descriptor of the library.  The class has no copy constructor and no assignment (lube/dft.h:28-41), so those of
the language copy the pointer.  Whether a function of the library succeeds is part of the program. -/

namespace Libube.OwningMkl

/-- A descriptor of the library (`mImpl->handle`, lube/dft-mkl.cpp:21, 53): none, there, or freed. -/
inductive Desc where
  | none | there | freed
deriving DecidableEq

/-- A `DFTImpl` (lube/dft-mkl.cpp:19-26): whether it still is allocated, and its descriptor.  The other members are in Model/DftMkl. -/
structure Obj where
  alloc : Bool
  desc : Desc
deriving DecidableEq

/-- All `DFTImpl` there have been; the functors as their `mImpl` (lube/dft.h:40), the last the latest. -/
structure State where
  objs : List Obj
  funs : List Nat
deriving DecidableEq

def start : State := ⟨[], []⟩

/-- Which of the functions called by the constructor succeed (lube/dft-mkl.cpp:64-99). -/
structure Lib where
  create : Bool
  set : Bool
  commit : Bool
deriving DecidableEq

/-- The statements: `DFT f(size, type);` or `IDFT`, `T f = g;`, `f = g;`, a call of a functor, and the end of the life of the last one, where `DftiFreeDescriptor`
    succeeds or not. -/
inductive Op where
  | dft (t : Kind) (l : Lib)
  | copy (i : Nat)
  | assign (i j : Nat)
  | use (i : Nat)
  | leave (success : Bool)
deriving DecidableEq

/-- The types the constructor knows (lube/dft-mkl.cpp:57-91; see `DftMkl.make` for `cdouble`). -/
def known : Kind → Bool
  | .float | .double | .cfloat => true
  | _ => false

/-- `DFTBase::DFTBase` (lube/dft-mkl.cpp:47-100).  If it throws there is no functor and no destructor runs: neither `mImpl` nor the descriptor is freed; the exception is
    caught.  A descriptor that cannot be created does not use memory. -/
def make (t : Kind) (l : Lib) (s : State) : State :=
  if known t then
    if l.create then
      if l.set && l.commit then ⟨s.objs ++ [⟨true, .there⟩], s.funs ++ [s.objs.length]⟩
      else { s with objs := s.objs ++ [⟨true, .there⟩] }
    else { s with objs := s.objs ++ [⟨true, .none⟩] }
  else { s with objs := s.objs ++ [⟨true, .none⟩] }

/-- `DFTBase::~DFTBase` (lube/dft-mkl.cpp:102-108) with `dftiCheck` (32-37).  An exception that leaves a destructor ends the program.  The library does not free what is not
    a descriptor. -/
def destroy (success : Bool) (p : Nat) (s : State) : Outcome State :=
  match s.objs[p]? with
  | none => .ub .badPointer
  | some o =>
    if o.alloc then
      match o.desc with
      | .there => if success then .ok { s with objs := s.objs.set p ⟨false, .freed⟩ } else .abort
      | _ => .ub .badPointer
    else .ub .useAfterFree

/-- What a call looks at (lube/dft-mkl.cpp:110-229); the result is in Model/DftMkl. -/
def use (p : Nat) (s : State) : Outcome State :=
  match s.objs[p]? with
  | none => .ub .badPointer
  | some o =>
    if o.alloc then
      match o.desc with
      | .there => .ok s
      | _ => .ub .badPointer
    else .ub .useAfterFree

/-- One statement.  Copies and assignments are those of the language, which copy the pointer (lube/dft.h:28-41). -/
def step : Op → State → Outcome State
  | .dft t l, s => .ok (make t l s)
  | .copy i, s =>
    match s.funs[i]? with
    | some f => .ok { s with funs := s.funs ++ [f] }
    | none => .ub .outOfBounds
  | .assign i j, s =>
    match s.funs[j]? with
    | some f => .ok { s with funs := s.funs.set i f }
    | none => .ub .outOfBounds
  | .use i, s =>
    match s.funs[i]? with
    | some f => use f s
    | none => .ub .outOfBounds
  | .leave b, s =>
    match s.funs.getLast? with
    | none => .ok s
    | some f => destroy b f { s with funs := s.funs.dropLast }

/-- A program (the statements are executed one after the other). -/
def run : List Op → State → Outcome State
  | [], s => .ok s
  | o :: os, s => do
    let s ← step o s
    run os s

end Libube.OwningMkl

import Verif.Model.Outcome

/-! # Loading modules (lube/module.h, lube/module.cpp)

A `module` object (here a loader) opens a dynamic library, makes instances of the class in it, deletes them in its destructor and closes the library.
Loaders and instances are numbered in the order in which they are made.  The state has a log of what happened, which the code does not have. -/

namespace Libube.Module

/-- What the factory function of a library does (lube/module.h:29-36; the libraries themselves are not modelled): leave the null pointer, throw, or give a new object of class `c`. -/
inductive Made where
  | null
  | throws
  | object (c : Nat)
deriving DecidableEq

/-- A dynamic library as the system shows it: whether `dlopen` finds it, whether `dlsym` finds the factory, and what that does with each argument. -/
structure Lib where
  found : Bool
  symbol : Bool
  factory : Nat → Made

/-- What happened, in order. -/
inductive Event where
  | opened (i n : Nat)
  | failed (n : Nat)
  | made (i a : Nat)
  | used (a : Nat)
  | freed (a : Nat)
  | closed (i : Nat)
deriving DecidableEq

/-- The members of class `module` (lube/module.h:52-55): `mHandle` and `mFactory` are those of library `lib`. -/
structure Loader where
  lib : Nat
  insts : List Nat
deriving DecidableEq

/-- `handles`: the libraries opened and not closed, as often as that is so; `heap`: the instances with the library that has their code, none if deleted; `vars`: the loaders, none if destroyed. -/
structure State where
  handles : List Nat
  heap : List (Option Nat)
  vars : List (Option Loader)
  log : List Event
deriving DecidableEq

/-- The state at the start of a program. -/
def State.start : State := ⟨[], [], [], []⟩

/-- A call returns, throws (std::bad_cast or error) or is undefined. -/
inductive Res where
  | ok (s : State)
  | thrown (s : State)
  | ub (u : UB)
deriving DecidableEq

/-- `module::module` (lube/module.cpp:20-39).  If it throws, there is no object and so no destructor runs.  The name is a number here. -/
def openLib (libs : Nat → Lib) (n : Nat) (s : State) : Res :=
  if (libs n).found then
    let t : State := { s with handles := n :: s.handles }
    if (libs n).symbol then
      .ok { t with vars := t.vars ++ [some ⟨n, []⟩], log := t.log ++ [.opened t.vars.length n] }
    else
      .thrown { t with log := t.log ++ [.failed n] }
  else
    .thrown s

/-- `module::create` (lube/module.cpp:51-66), then the `dynamic_cast` to the class that the caller expects (lube/module.h:78-80, lube/graph.h:31-33). -/
def create (libs : Nat → Lib) (i cls arg : Nat) (s : State) : Res :=
  match s.vars[i]? with
  | some (some l) =>
    if l.lib ∈ s.handles then
      match (libs l.lib).factory arg with
      | .null => .thrown s
      | .throws => .thrown s
      | .object c =>
        let a := s.heap.length
        let t : State := { s with heap := s.heap ++ [some l.lib], vars := s.vars.set i (some { l with insts := l.insts ++ [a] }), log := s.log ++ [.made i a] }
        if c = cls then .ok t else .thrown t
    else .ub .badPointer
  | _ => .ub .useAfterFree

/-- A call of a virtual function of an instance: its code is in the library. -/
def use (a : Nat) (s : State) : Res :=
  match s.heap[a]? with
  | some (some n) => if n ∈ s.handles then .ok { s with log := s.log ++ [.used a] } else .ub .badPointer
  | _ => .ub .useAfterFree

/-- `delete mInstance[i]` for each (lube/module.cpp:45-46); the destructor is virtual (lube/module.h:24), so its code is in the library. -/
def deleteAll : List Nat → State → Res
  | [], s => .ok s
  | a :: as, s =>
    match s.heap[a]? with
    | some (some n) => if n ∈ s.handles then deleteAll as { s with heap := s.heap.set a none, log := s.log ++ [.freed a] } else .ub .badPointer
    | _ => .ub .useAfterFree

/-- `module::~module` (lube/module.cpp:42-48). -/
def close (i : Nat) (s : State) : Res :=
  match s.vars[i]? with
  | some (some l) =>
    match deleteAll l.insts s with
    | .ok t =>
      if l.lib ∈ t.handles then .ok { t with handles := t.handles.erase l.lib, vars := t.vars.set i none, log := t.log ++ [.closed i] } else .ub .badPointer
    | r => r
  | _ => .ub .useAfterFree

/-- The copy constructor that the compiler makes for class `module` (lube/module.h:44-56): the pointers are copied. -/
def copy (i : Nat) (s : State) : Res :=
  match s.vars[i]? with
  | some (some l) => .ok { s with vars := s.vars ++ [some l] }
  | _ => .ub .useAfterFree

/-- What a program does with modules. -/
inductive Op where
  | load (n : Nat)
  | create (i cls arg : Nat)
  | use (a : Nat)
  | copy (i : Nat)
  | close (i : Nat)

/-- Does it. -/
def step (libs : Nat → Lib) : Op → State → Res
  | .load n => openLib libs n
  | .create i cls arg => create libs i cls arg
  | .use a => use a
  | .copy i => copy i
  | .close i => close i

/-- A program that catches what is thrown: the state in which it ends. -/
def run (libs : Nat → Lib) : List Op → State → Res
  | [], s => .ok s
  | o :: os, s =>
    match step libs o s with
    | .ok t => run libs os t
    | .thrown t => run libs os t
    | .ub u => .ub u

end Libube.Module

import Verif.Model.MemProg

/-! # `irange` and `range` with their parameters as variables (lube/var.cpp:857-898)

`Model/Range` has the numbers.  Here the parameters are vars, which a call initialises with copies: the copy of a
reference to an element is a reference to that element (lube/var.cpp:260-266). -/

namespace Libube.Mem

variable {α : Type}

/-- The type codes (lube/var.h:31-42). -/
def typeCode : Kind → Nat
  | .char => 1
  | .int => 2
  | .long => 3
  | .float => 4
  | .double => 5
  | .cfloat => 6
  | .cdouble => 7
  | .var => 8
  | .pair => 9

/-- `a < b` for two numbers (lube/var.cpp:546-565): of different types the one with the lesser code is less.  Arrays are
    not modelled here. -/
def lessNum [Env α] (lt : α → α → Bool) (v w : V α) : M α Bool := do
  match ← typeV v, ← typeV w with
  | some k, some j =>
    if k = j then do
      let x ← getV k v
      let y ← getV j w
      pure (lt x y)
    else pure (decide (typeCode k < typeCode j))
  | _, _ => undef .typePun

/-- The condition of the loop (lube/var.cpp:860, or with `incl` 886, where `<=` is `!(hi < lo)`, lube/var.h:102-103). -/
def goesOn [Env α] (lt : α → α → Bool) (incl : Bool) (lo hi : V α) : M α Bool :=
  if incl then do
    let b ← lessNum lt hi lo
    pure !b
  else lessNum lt lo hi

/-- The loop of `irange` (lube/var.cpp:860-864), or with `incl` of `range` (886-890): the parameters are variables `p`, `p+1` and
    `p+2`, the result is `p+3`.  `F` is `+` and `lt` is `<` of numbers; the first number bounds the iterations. -/
def irangeLoop [Env α] (F : Bin α) (lt : α → α → Bool) (incl : Bool) (p : Nat) : Nat → M α Unit
  | 0 => fun _ => .diverge
  | n + 1 => do
    let lo ← readLoc (.slot p)
    let hi ← readLoc (.slot (p + 1))
    let go ← goesOn lt incl lo hi
    if go then do
      run (.push (p + 3) (.name p))
      run (.eval (.arithTo F 1 p (.name (p + 2)) p))
      irangeLoop F lt incl p n
    else pure ()

/-- A call `irange(a, b, c)` or `range(a, b, c)` (lube/var.cpp:857-866, 883-892): the parameters and the result become variables in
    turn, and afterwards the result is in the place of the first of them.  That parameters are destroyed after the
    result has been taken is done as an assignment to the first of a moved result, and leaving the other scopes. -/
def irangeCall [Env α] (F : Bin α) (lt : α → α → Bool) (incl : Bool) (fuel : Nat) (a b c : Exp α) : M α Unit := fun s =>
  let p := s.stk.length
  (do
    run (.decl a)
    run (.decl b)
    run (.decl c)
    run (.decl .nil)
    irangeLoop F lt incl p fuel
    let r ← moveVar (p + 3)
    run .leave
    run .leave
    run .leave
    run .leave
    fun s => .ok () { s with stk := s.stk ++ [r] } : M α Unit) s

end Libube.Mem

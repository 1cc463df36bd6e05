import Verif.Model.MemCompare

/-! # Sorting variables in memory (lube/var.cpp)

Comparisons are those of Model/MemCompare, the other calls those of Model/Mem. -/

namespace Libube.Mem

variable {α : Type}

/-- The loop of `var::sort` (lube/var.cpp:1185-1189) from `i`; `r` is the place of the result, the last number bounds the steps. -/
def sortFrom [Env α] (N : Numbers α) (n : Nat) (v : V α) (r : Loc) : Nat → Nat → M α Unit
  | _, 0 => pure ()
  | i, m + 1 => do
    if i < (← sizeV v) then do
      let p ← withVar (← at' v i) fun l => do binaryV N n (← readLoc r) (← readLoc l)
      insert r (← at' v i) p
      sortFrom N n v r (i + 1) m
    else pure ()

/-- `var::sort` (lube/var.cpp:1181-1191): the result is copied and `r` destroyed, which changes no count in the end. -/
def sortV [Env α] (N : Numbers α) (n : Nat) (v : V α) : M α (V α) :=
  withVar .nil fun r => do
    let m ← sizeV v
    presize r m
    sortFrom N n v r 0 m
    copyV (← readLoc r)

/-- A variable declared with a value a function returns (lube/var.cpp:1190); no copy is made. -/
def newVar (v : V α) : M α Unit := fun s => .ok () { s with stk := s.stk ++ [v] }

/-- `var y = x.sort();` for variable `m` (lube/var.cpp:1181-1191). -/
def declSort [Env α] (N : Numbers α) (n m : Nat) : M α Unit := do
  let v ← sortV N n (← readLoc (.slot m))
  newVar v

end Libube.Mem

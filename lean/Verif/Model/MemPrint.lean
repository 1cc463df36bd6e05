import Verif.Model.MemUnary
import Verif.Model.MemString
import Verif.Model.CString

/-! # Printing (lube/json.cpp:237-366) with the vars in memory

`Model/Json` has the text of values.  Here the parameters of `format` and `formatArray` are copies, and `iVar[i]` and `iVar.at(i)`
are temporary references.  Views are not modelled. -/

namespace Libube.Mem

open CString

variable {α : Type}

/-- What the standard library writes: the number of a type (lube/json.cpp:256-274, 341), and the address of an element (349). -/
structure Printer (α : Type) where
  num : Kind → α → Bytes
  ptr : Addr → Nat → Bytes

/-- Writing the characters at a `char*` (lube/json.cpp:299) from place `i` of an array with `n` places left, until there is a NUL. -/
def putChars [Env α] [DecidableEq α] (p : Printer α) (a : Addr) : Nat → Nat → M α Bytes
  | _, 0 => undef .outOfBounds
  | i, n + 1 => do
    let x ← rawAt a i
    if x = Env.nul then pure []
    else do
      let r ← putChars p a (i + 1) n
      pure (p.num .char x ++ r)

/-- A loop over elements from `i`, `n` to go (lube/json.cpp:305, 325, 345, 360).  The size is asked for once, not in every turn. -/
def putLoop (f : Nat → M α Bytes) : Nat → Nat → M α Bytes
  | _, 0 => pure []
  | i, n + 1 => do
    let x ← f i
    let r ← putLoop f (i + 1) n
    pure (x ++ r)

/-- `iStream << v` for a temporary (lube/json.cpp:286-291): the parameter of `operator <<` is the temporary, that of `format` a
    copy. -/
def putVar (fmt : Loc → M α Bytes) (v : V α) : M α Bytes :=
  withVar v fun l => do
    let c ← copyV (← readLoc l)
    withVar c fmt

/-- `var::key(int)` (lube/var.cpp:844-849) with `Heap::key` (lube/heap.cpp:438-444). -/
def keyAt (v : V α) (i : Nat) : M α (V α) := do
  if (← atypeV v) ≠ .pair then throwE (.error "var::key(): Not a map")
  else match ← heapOf v with
    | none => undef .nullDeref
    | some a => do
      let o ← obj a
      if i < o.size then copyV (← readLoc (.key a i)) else throwE (.rangeError "Heap::at(): index out of bounds")

/-- The comma after all but the last element (lube/json.cpp:312-313, 330-331, 350-351). -/
def comma (i n : Nat) : Bytes := if i + 1 < n then [44] else []

/-- `JSON::formatArray` (lube/json.cpp:293-366); `fmt` is `format` for an indentation. -/
def formatArray [Env α] [DecidableEq α] (p : Printer α) (fmt : Nat → Loc → M α Bytes) (ind : Nat) (l : Loc) : M α Bytes := do
  let v ← readLoc l
  match ← atypeV v with
  | .char => do
    match ← charPtr v with
    | none => undef .typePun
    | some (a, j) => do
      let o ← obj a
      let r ← putChars p a j (o.cells.length - j)
      pure ([34] ++ r ++ [34])
  | .pair => do
    let n ← sizeV v
    let r ← putLoop (fun i => do
      let k ← putVar (fmt 0) (← keyAt v i)
      let x ← withVar (← index l i) (fmt (ind + 2))
      pure ([10] ++ List.replicate (ind + 2) 32 ++ k ++ [58, 32] ++ x ++ comma i n)) 0 n
    pure ([123] ++ r ++ (if n = 0 then [] else [10] ++ List.replicate ind 32) ++ [125])
  | .var => do
    let n ← sizeV v
    let r ← putLoop (fun i => do
      let x ← withVar (← index l i) (fmt (ind + 2))
      pure (List.replicate (ind + 2) 32 ++ x ++ comma i n ++ [10])) 0 n
    pure ([91, 10] ++ r ++ List.replicate ind 32 ++ [93])
  | .cdouble => do
    match ← charPtr v with
    | none => undef .typePun
    | some (a, j) => do
      let n ← sizeV v
      if n = 1 then do
        let x ← rawAt a j
        pure (p.num .cdouble x)
      else do
        let r ← putLoop (fun i => pure (List.replicate (ind + 2) 32 ++ p.ptr a i ++ comma i n ++ [10])) 0 n
        pure ([91, 10] ++ r ++ List.replicate ind 32 ++ [93])
  | _ => do
    let n ← sizeV v
    let r ← putLoop (fun i => do
      let x ← putVar (fmt 0) (← at' v i)
      pure ((if i = 0 then [] else [44, 32]) ++ x)) 0 n
    pure ([91] ++ r ++ [93])

/-- `JSON::format` (lube/json.cpp:242-283); the first number bounds the depth. -/
def format [Env α] [DecidableEq α] (p : Printer α) : Nat → Nat → Loc → M α Bytes
  | 0, _, _ => fun _ => .diverge
  | n + 1, ind, l => do
    let v ← readLoc l
    match ← typeV v with
    | none =>
      match ← heapOf v with
      | none => pure [110, 117, 108, 108]
      | some _ => do
        let c ← copyV v
        withVar c (formatArray p (format p n) ind)
    | some .char => do
      let x ← getV .char v
      pure ([39] ++ p.num .char x ++ [39])
    | some .cdouble => throwE (.error "var::format(): cdouble should be array")
    | some .var => throwE (.error "var::format(): Unknown type")
    | some .pair => throwE (.error "var::format(): Unknown type")
    | some k => do
      let x ← getV k v
      pure (p.num k x)

/-- `std::cout << x` for variable `m` (lube/json.cpp:286-291): the parameter is a copy. -/
def print [Env α] [DecidableEq α] (p : Printer α) (n m : Nat) : M α Bytes := do
  putVar (format p n 0) (← copyV (← readLoc (.slot m)))

end Libube.Mem

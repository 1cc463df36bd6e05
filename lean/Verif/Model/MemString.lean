import Verif.Model.MemUnary

/-! # String functors on arrays of strings (lube/string.cpp)

`StringFunctor` applied to variables that share arrays: `toupper`, `tolower`, regular expressions.
Views are not modelled. -/

namespace Libube.Mem

/-- The function `string(iVar, oVar)` of a functor.  The flag says whether the output is the very
    variable that is the input. -/
abbrev StrFn (α : Type) := Bool → V α → Loc → M α Unit

/-- `StringFunctor::operator()(iVar, oVar)` (lube/string.cpp:58-65) with `broadcast` (79-87), whose loop
    is that of `UnaryFunctor`.  The copy of the output that is returned is left out.  The number
    bounds the depth of the recursion. -/
def strCall [Env α] (S : StrFn α) : Nat → Bool → V α → Loc → M α Unit
  | 0, _, _, _ => fun _ => .diverge
  | d + 1, same, v, lo => do
    let k ← atypeV v
    if k = .char then S same v lo
    else do
      attachV v
      withVar v fun _ => do
        let n ← sizeV v
        broadcast (strCall S d false) v lo 0 n

/-- `StringFunctor::operator()(iVar, oVar)` (lube/string.cpp:58-65) for two variables. -/
def strTo [Env α] (S : StrFn α) (d : Nat) (n m : Nat) : M α (V α) := do
  let v ← readLoc (.slot n)
  strCall S d (decide (n = m)) v (.slot m)
  copyV (← readLoc (.slot m))

/-- `StringFunctor::operator()(iVar)` (lube/string.cpp:47-55) with `alloc` (39-44) for variable `n`; the
    result is a new variable.  A copy only allocates: characters are uninitialised, vars are nil. -/
def strNew [Env α] (S : StrFn α) (d : Nat) (n : Nat) : M α (V α) := do
  let v ← readLoc (.slot n)
  let r ← match ← heapOf v with
    | none => copyV v
    | some a => do
      let o ← obj a
      let b ← newHeap o.size (some o.kind)
      pure (.arr b)
  withVar .nil fun lr => do
    assign lr r
    strCall S d false v lr
    copyV (← readLoc lr)

/-- `var::is` (lube/var.cpp:783-799).  Every array has memory of its own, so that equal pointers mean
    the same array. -/
def isSame (same : Bool) (v : V α) (lo : Loc) : M α Bool := do
  if same then pure true
  else do
    let o ← readLoc lo
    match ← heapOf v with
    | none => pure false
    | some a => do
      match ← heapOf o with
      | none => pure false
      | some b => pure (decide (a = b))

/-- Reading `ip[i]` where `ip` is `ptr<char>()` (lube/var.cpp:165-175). -/
def charAt (v : V α) (i : Nat) : M α α := do
  match ← derefV v with
  | .arr a => rawAt a i
  | .num .char x => if i = 0 then pure x else undef .outOfBounds
  | .ref a j => rawAt a (j + i)
  | _ => undef .typePun

/-- Writing `op[i]`, likewise. -/
def setChar (lo : Loc) (i : Nat) (x : α) : M α Unit := do
  match ← readLoc lo with
  | .arr b => setRaw b i x
  | .num .char _ => if i = 0 then writeLoc lo (.num .char x) else undef .outOfBounds
  | .ref b j => do
    match ← derefLoc b j with
    | some r => do
      match ← readLoc r with
      | .arr b => setRaw b i x
      | .num .char _ => if i = 0 then writeLoc r (.num .char x) else undef .outOfBounds
      | _ => undef .typePun
    | none => setRaw b (j + i) x
  | _ => undef .typePun

/-- The loop of `ToUpper::string` and `ToLower::string` (lube/string.cpp:328-330, 342-344) from
    character `i`, `n` characters to go.  The size is read once, not before every turn; the pointers are
    found at every turn, not once. -/
def mapChars (f : α → α) (v : V α) (lo : Loc) : Nat → Nat → M α Unit
  | _, 0 => pure ()
  | i, n + 1 => do
    let x ← charAt v i
    setChar lo i (f x)
    mapChars f v lo (i + 1) n

/-- `ToUpper::string` and `ToLower::string` (lube/string.cpp:319-345); `f` is the function of the C
    library. -/
def mapCase [Env α] (f : α → α) : StrFn α := fun same v lo => do
  if ← isSame same v lo then pure ()
  else do
    let e ← newStr []
    assign lo e
    resize lo (← sizeV v)
  mapChars f v lo 0 (← sizeV v)

/-- Reading characters `i`, …, `n` of them. -/
def readChars (a : Addr) : Nat → Nat → M α (List α)
  | _, 0 => pure []
  | i, n + 1 => do
    let x ← rawAt a i
    let xs ← readChars a (i + 1) n
    pure (x :: xs)

/-- `var::str()` (lube/var.cpp:194-200) read as a string: all characters of the array.  In C++ a NUL
    ends the string; here what reads it has to do so. -/
def textV (v : V α) : M α (List α) := do
  match ← heapOf v with
  | none => pure []
  | some a => do
    let o ← obj a
    readChars a 0 o.size

/-- `matches.str(i)` (lube/string.cpp:267, 286): a match is a place in the string that has been searched, whose
    characters are read only now.  A var without an array has the empty string. -/
def matched (a : Option Addr) (p l : Nat) : M α (List α) :=
  match a with
  | some a => readChars a p l
  | none => if l = 0 then pure [] else undef .outOfBounds

/-- The loop over the matches (lube/string.cpp:266-267, 285-286) from match `i`; every match is given by its
    place and its length. -/
def putMatches [Env α] (a : Option Addr) (lo : Loc) : Nat → List (Nat × Nat) → M α Unit
  | _, [] => pure ()
  | i, m :: ms => do
    let r ← newStr (← matched a m.1 m.2)
    setIndex lo i r
    putMatches a lo (i + 1) ms

/-- `Search::string` and `Match::string` (lube/string.cpp:259-268, 278-287): `re` is the search for the
    regular expression, its result the whole match and the groups. -/
def findIn [Env α] (re : List α → Option (List (Nat × Nat))) : StrFn α := fun _ v lo => do
  let a ← heapOf v
  let s ← textV v
  assign lo .nil
  match re s with
  | none => pure ()
  | some ms => putMatches a lo 0 ms

/-- `Replace::string` (lube/string.cpp:303-310): `re` replaces the matches in a string. -/
def replaceIn [Env α] (re : List α → List α) : StrFn α := fun _ v lo => do
  let s ← textV v
  let r ← newStr (re s)
  assign lo r

/-- `ptr<char>()` (lube/var.cpp:165-175) kept in a variable: a place in an array, or nothing if it points to
    the data of the var itself. -/
def charPtr (v : V α) : M α (Option (Addr × Nat)) := do
  match ← derefV v with
  | .arr a => pure (some (a, 0))
  | .ref a j => pure (some (a, j))
  | _ => pure none

/-- Leading white space (lube/string.cpp:236-237) from character `i`, `n` characters to go. -/
def leading (sp : α → Bool) (v : V α) : Nat → Nat → M α Nat
  | i, 0 => pure i
  | i, n + 1 => do
    let x ← charAt v i
    if sp x then leading sp v (i + 1) n else pure i

/-- Trailing white space (lube/string.cpp:239-240): of the first `n` characters, `t` after them. -/
def trailing (sp : α → Bool) (v : V α) : Nat → Nat → M α Nat
  | 0, t => pure t
  | n + 1, t => do
    let x ← charAt v n
    if sp x then trailing sp v n (t + 1) else pure t

/-- `std::memmove(op, op + d, n)` (lube/string.cpp:246) from character `i`, `n` characters to go.  Characters
    that are not initialised may be moved in C++ but not here. -/
def moveChars (a : Addr) (j d : Nat) : Nat → Nat → M α Unit
  | _, 0 => pure ()
  | i, n + 1 => do
    let x ← rawAt a (j + d + i)
    setRaw a (j + i) x
    moveChars a j d (i + 1) n

/-- The loop that copies (lube/string.cpp:254-255) from character `i`, `n` characters to go.  `op` is the
    pointer found before `oVar` was assigned; if it points to the data of `oVar` itself, that now
    is the pointer to the array. -/
def copyChars (v : V α) (op : Option (Addr × Nat)) (d : Nat) : Nat → Nat → M α Unit
  | _, 0 => pure ()
  | i, n + 1 => do
    let x ← charAt v (i + d)
    match op with
    | none => undef .typePun
    | some (a, j) => do
      setRaw a (j + i) x
      copyChars v op d (i + 1) n

/-- Moving the text to the front (lube/string.cpp:245-246); a negative number of bytes is a very large one. -/
def stripMove (op : Option (Addr × Nat)) (l : Nat) (m : Int) : M α Unit :=
  if l = 0 then pure ()
  else if m < 0 then undef .outOfBounds
  else
    match op with
    | none => undef .typePun
    | some (a, j) => moveChars a j l 0 m.toNat

/-- `Strip::string` (lube/string.cpp:230-257); `sp` is `isspace`. -/
def stripIn [Env α] (sp : α → Bool) : StrFn α := fun same v lo => do
  let op ← charPtr (← readLoc lo)
  let n ← sizeV v
  let l ← leading sp v 0 n
  let t ← trailing sp v n 0
  let m : Int := (n : Int) - l - t
  if ← isSame same v lo then do
    stripMove op l m
    let k ← sizeV (← readLoc lo)
    if m ≠ k then resize lo m else pure ()
  else do
    let e ← newStr []
    assign lo e
    resize lo m
    copyChars v op l 0 m.toNat

/-- The functors: `Search` and `Match`, `Replace`, `ToUpper` and `ToLower`, `Strip`
    (lube/regex.h:22-49, lube/string.h:42-44). -/
inductive StrOp (α : Type) where
  | case (f : α → α)
  | find (re : List α → Option (List (Nat × Nat)))
  | replace (re : List α → List α)
  | strip (sp : α → Bool)

/-- What each does with a string (as above, lube/string.cpp:230-345). -/
def StrOp.fn [Env α] : StrOp α → StrFn α
  | .case f => mapCase f
  | .find re => findIn re
  | .replace re => replaceIn re
  | .strip sp => stripIn sp

end Libube.Mem

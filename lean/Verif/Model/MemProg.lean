import Verif.Model.MemArith
import Verif.Model.MemSort

/-! # Programs over variables, arrays and maps

Variables are numbered in the order of their declaration.  Any chain of calls can be written by
naming the intermediate results. -/

namespace Libube.Mem

/-- Expressions: literals, variables, and the calls that return a `var`. -/
inductive Exp (α : Type) where
  | nil
  | num (k : Kind) (x : α)
  | str (cs : List α)
  | name (n : Nat)
  | elem (n : Nat) (i : Int)
  | at (n : Nat) (i : Int)
  | top (n : Nat)
  | key (n : Nat) (k : Exp α)
  | atKey (n : Nat) (k : Exp α)
  | copy (n : Nat)
  | pop (n : Nat)
  | shift (n : Nat)
  | remove (n : Nat) (i : Nat)
  | math (F : Fn α) (d n : Nat)
  | mathTo (F : Fn α) (d n m : Nat)
  | text (S : StrOp α) (d n : Nat)
  | textTo (S : StrOp α) (d n m : Nat)
  | arith (F : Bin α) (d n : Nat) (e : Exp α)
  | arithTo (F : Bin α) (d n : Nat) (e : Exp α) (m : Nat)
  | move (n : Nat)

/-- Statements. -/
inductive Stmt (α : Type) where
  | decl (e : Exp α)
  | leave
  | assign (n : Nat) (e : Exp α)
  | setElem (n : Nat) (i : Int) (e : Exp α)
  | setAt (n : Nat) (i : Int) (e : Exp α)
  | setKey (n : Nat) (k e : Exp α)
  | push (n : Nat) (e : Exp α)
  | unshift (n : Nat) (e : Exp α)
  | insert (n : Nat) (e : Exp α) (p : Nat)
  | resize (n : Nat) (k : Int)
  | array (n : Nat)
  | clear (n : Nat)
  | presize (n : Nat) (k : Int)
  | append (n : Nat) (k : Kind) (xs : List α)
  | appendVar (n : Nat) (e : Exp α)
  | eval (e : Exp α)
  | differ (N : Numbers α) (d n m : Nat)
  | equal (N : Numbers α) (d n m : Nat)
  | less (N : Numbers α) (d n m : Nat)
  | find (N : Numbers α) (d n m : Nat)
  | sort (N : Numbers α) (d n : Nat)
  | print (h : DecidableEq α) (p : Printer α) (d n : Nat)

/-- The move constructor (lube/var.cpp:348-359), as in `std::move(x)` given to a function or a declaration: the
    new var has the content, also if it is a reference, and the old one is nil. -/
def moveVar (n : Nat) : M α (V α) := do
  let v ← readLoc (.slot n)
  writeLoc (.slot n) .nil
  pure v

/-- `var::top()` (lube/var.h:138), which is `at(size() - 1)`. -/
def top [Env α] (v : V α) : M α (V α) := do
  let n ← sizeV v
  at' v ((n : Int) - 1)

/-- The value of an expression: a new var.  Variables are copied (lube/var.cpp:260-266); calls are those
    of `Model/Mem`. -/
def eval [Env α] : Exp α → M α (V α)
  | .nil => pure .nil
  | .num k x => newNum k x
  | .str cs => newStr cs
  | .name n => do copyV (← readLoc (.slot n))
  | .elem n i => index (.slot n) i
  | .at n i => do at' (← readLoc (.slot n)) i
  | .top n => do top (← readLoc (.slot n))
  | .key n k => do mapIndex (.slot n) (← eval k)
  | .atKey n k => do
    let v ← eval k
    withVar v fun _ => do mapAt (← readLoc (.slot n)) v
  | .copy n => do copy (← readLoc (.slot n))
  | .pop n => pop (.slot n)
  | .shift n => shift (.slot n)
  | .remove n i => remove (.slot n) i
  | .math F d n => applyNew F d n
  | .mathTo F d n m => applyTo F d n m
  | .text S d n => strNew S.fn d n
  | .textTo S d n m => strTo S.fn d n m
  | .arith F d n e => do arithNew F d n (← eval e)
  | .arithTo F d n e m => do arithTo F d n (← eval e) m
  | .move n => moveVar n

/-- The effect of a statement; the right side of an assignment is evaluated first.  The results of comparing (lube/var.h:99-104), of `index`
    (lube/var.cpp:1194-1214) and of printing (lube/json.cpp:286-291) are not kept: as a program is any sequence of statements, it may depend on them. -/
def run [Env α] : Stmt α → M α Unit
  | .decl e => do
    let v ← eval e
    fun s => .ok () { s with stk := s.stk ++ [v] }
  | .leave => fun s =>
    match s.stk.getLast? with
    | none => .ub .badPointer
    | some v => detachV v { s with stk := s.stk.dropLast }
  | .assign n e => do assign (.slot n) (← eval e)
  | .setElem n i e => do setIndex (.slot n) i (← eval e)
  | .setAt n i e => do
    let v ← eval e
    setAt (← readLoc (.slot n)) i v
  | .setKey n k e => do
    let v ← eval e
    withVar v fun _ => do
      let r ← eval (.key n k)
      withVar r fun lr => do
        attachV v
        assign lr v
  | .push n e => do push (.slot n) (← eval e)
  | .unshift n e => do unshift (.slot n) (← eval e)
  | .insert n e p => do insert (.slot n) (← eval e) p
  | .resize n k => resize (.slot n) k
  | .array n => array (.slot n)
  | .clear n => assign (.slot n) .nil
  | .presize n k => presize (.slot n) k
  | .append n k xs => append (.slot n) k xs
  | .appendVar n e => do -- lube/var.h:143 (and 119, the comma)
    let v ← eval e
    insert (.slot n) v (← sizeV (← readLoc (.slot n)))
  | .eval e => do
    let v ← eval e
    detachV v
  | .differ N d n m => do
    let _ ← differ N d n m
  | .equal N d n m => do
    let _ ← equal N d n m
  | .less N d n m => do
    let _ ← less N d n m
  | .find N d n m => do
    let _ ← indexOf N d n m
  | .sort N d n => declSort N d n
  | .print _ p d n => do
    let _ ← print p d n

/-- A program: statements one after the other; exceptions are caught and the program goes on. -/
def exec [Env α] : List (Stmt α) → State α → R α Unit
  | [], s => .ok () s
  | st :: sts, s =>
    match run st s with
    | .ok _ s' => exec sts s'
    | .thrown _ s' => exec sts s'
    | r => r

end Libube.Mem

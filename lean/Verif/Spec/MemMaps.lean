import Verif.Spec.MemVars

/-! # Specification of maps (C33–C35, C37, C38) -/

namespace Libube.MemSpec

open Mem

/-- A kind of keys: numbers of some type or strings, and the strict total order in which the comparison of vars
    puts them. -/
structure KeyOrder (α : Type) [Env α] where
  Key : Item α → Prop
  lt : Item α → Item α → Prop
  simple : ∀ {t : Item α}, Key t → (∃ k x, t = .num k x ∧ Scalar k) ∨ ∃ cs, t = .str cs ∧ Fits cs
  less : ∀ {s : State α} {t u : Item α} {v w : V α}, Key t → Key u → t.Shown s v → u.Shown s w → (Env.less s.mem v w = true ↔ lt t u)
  differ : ∀ {s : State α} {t u : Item α} {v w : V α}, Key t → Key u → t.Shown s v → u.Shown s w → (Env.differ s.mem v w = true ↔ t ≠ u)
  irrefl : ∀ {t : Item α}, Key t → ¬ lt t t
  trans : ∀ {t u v : Item α}, Key t → Key u → Key v → lt t u → lt u v → lt t v
  total : ∀ {t u : Item α}, Key t → Key u → lt t u ∨ t = u ∨ lt u t

/-- Variable `n` is a map, and its entries in the order of their positions are `l`: the keys as numbers or strings,
    the values as vars (a var that is an array is given by which array it is). -/
def Entries (s : State α) (n : Nat) (l : List (Item α × V α)) : Prop :=
  ∃ ks : List (V α), ks.length = l.length ∧
    Elems s n .pair ((ks.zip l).map fun p => .pair p.1 p.2.2) ∧
    ∀ (i : Nat) (t : Item α) (w k : V α), l[i]? = some (t, w) → ks[i]? = some k → t.Shown s k

/-- All keys are of that kind, and each is less than the next. -/
def Ascending [Env α] (K : KeyOrder α) (l : List (Item α × V α)) : Prop :=
  (∀ p ∈ l, K.Key p.1) ∧ l.Pairwise fun p q => K.lt p.1 q.1

/-- Variable `n` is a map with these entries, its keys ascending. -/
def MapOf [Env α] (K : KeyOrder α) (s : State α) (n : Nat) (l : List (Item α × V α)) : Prop :=
  Entries s n l ∧ Ascending K l

/-- `l'` has the entries of `l`, but `t` with `w` in place of any with key `t`. -/
def Updated (l l' : List (Item α × V α)) (t : Item α) (w : V α) : Prop :=
  ∀ u x, (u, x) ∈ l' ↔ (u = t ∧ x = w) ∨ (u ≠ t ∧ (u, x) ∈ l)

/-- The key is in none of the entries. -/
def Absent (l : List (Item α × V α)) (t : Item α) : Prop := ∀ w, (t, w) ∉ l

/-- The expression is the key `t`: a literal, or a variable. -/
def KeyExp (s : State α) (k : Exp α) (t : Item α) : Prop :=
  k = t.exp ∨ ∃ m v, k = .name m ∧ s.stk[m]? = some v ∧ t.Shown s v

/-- Variable `m` is `w`, or a reference to an element or the value of an entry that is `w`. -/
def Reads (s : State α) (m : Nat) (w : V α) : Prop :=
  (s.stk[m]? = some w ∧ Plain w) ∨
  ∃ a i o, s.stk[m]? = some (.ref a i) ∧ s.mem[a]? = some (some o) ∧ (o.cells[i]? = some (.var w) ∨ ∃ k, o.cells[i]? = some (.pair k w))

/-- Every array has the type, size and elements it had, or is gone; those that were gone stay so. -/
def AllSame (s s' : State α) : Prop :=
  (∀ (b : Addr) (o : Obj α), s.mem[b]? = some (some o) → s'.mem[b]? = some none ∨
    ∃ o' : Obj α, s'.mem[b]? = some (some o') ∧ o'.kind = o.kind ∧ o'.size = o.size ∧ o'.cells = o.cells) ∧
  ∀ b : Addr, s.mem[b]? = some none → s'.mem[b]? = some none

/-- Variable `r` is a reference to the entry of key `t` in the map of variable `n`. -/
def RefersTo (s : State α) (r n : Nat) (l : List (Item α × V α)) (t : Item α) : Prop :=
  ∃ a p w, s.stk[n]? = some (.arr a) ∧ s.stk[r]? = some (.ref a p) ∧ l[p]? = some (t, w)

/-- Variable `n` is a map of at most `m` entries, with ascending keys; a key has the value `f` gives, if any, and is
    absent otherwise. -/
def Assoc [Env α] (K : KeyOrder α) (s : State α) (n m : Nat) (f : Item α → Option (Item α)) : Prop :=
  ∃ l, MapOf K s n l ∧ l.length ≤ m ∧ ∀ t, match f t with
    | none => Absent l t
    | some u => ∃ w, (t, w) ∈ l ∧ u.Shown s w

/-- Array `a` is a key in the map of variable `n`. -/
def IsKey (s : State α) (n : Nat) (a : Addr) : Prop :=
  ∃ b o i w, s.stk[n]? = some (.arr b) ∧ s.mem[b]? = some (some o) ∧ i < o.size ∧ o.cells[i]? = some (.pair (.arr a) w)

/-- The values after some assignments to keys: the last one to a key counts. -/
def assigned [DecidableEq α] (f : Item α → Option (Item α)) : List (Item α × Item α) → Item α → Option (Item α)
  | [] => f
  | (t, u) :: ops => assigned (fun t' => if t' = t then some u else f t') ops

end Libube.MemSpec

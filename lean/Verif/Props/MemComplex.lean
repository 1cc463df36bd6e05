import Verif.Lemmas.MemComplex
import Verif.Props.MemAppend

/-! # Arrays of complex numbers (C153)

`Cast<cdouble>::scalar` (lube/var.cpp:646-700) takes a reference to an element of an array of `cdouble` for a number that must be
converted, since a number of this type is an array, and converts its real part. -/

namespace Libube.MemProps

open Mem MemSpec

variable {α : Type}

/-- C153 for operations that take and give whole numbers: any valid sequence of them runs, makes of the array what it makes of a
    list, and changes no other variable or array. -/
theorem complex_is_list_partial [Env α] {s : State α} (hr : Reach s) {n : Nat} {xs : List α} (h : Contents s n .cdouble xs)
    (ops : List (COp α)) (hv : CValidOps ops xs) :
    ∃ s', Runs (ops.map (COp.stmt n)) s s' ∧ Contents s' n .cdouble (clistOps ops xs) ∧ OnlyArray s s' n := by
  obtain ⟨a, hg⟩ := good_of_contents hr ⟨by decide, by decide⟩ h
  obtain ⟨s', h1, h2, h3⟩ := csteps_ok ops s xs hg hv
  exact ⟨s', h1, h2.contents, h3.onlyArray hg.slot⟩

/-- `x[i] = x[j]` for numbers of all types: element `i` becomes element `j`, converted from its type to itself. -/
theorem own_element_converts [Env α] {s : State α} (hr : Reach s) {n i j : Nat} {k : Kind} {xs : List α} {x : α}
    (hk : Number k) (h : Contents s n k xs) (hi : i < xs.length) (hx : xs[j]? = some x) :
    ∃ s', run (.setElem n i (.elem n j)) s = .ok () s' ∧ Contents s' n k (xs.set i (Env.conv k k x)) ∧ OnlyArray s s' n := by
  obtain ⟨a, ⟨o, ho, hh, hko, hrc⟩, hs⟩ := good_of_contents hr hk h
  have hj := (List.getElem?_eq_some_iff.1 hx).1
  have he : eval (.elem n j) s = .ok (.ref a j) (upd s a { o with rc := o.rc + 1 }) := index_in hs ho (by rw [hh.size]; exact hj)
  obtain ⟨y, hy⟩ := hh.place hi
  let o1 : Obj α := { o with rc := o.rc + 1, cells := o.cells.set i (.raw (some (Env.conv o.kind o.kind x))) }
  have hset : setIndex (.slot n) i (.ref a j) (upd s a { o with rc := o.rc + 1 }) = .ok () (upd s a { o1 with rc := o.rc }) := by
    let s1 : State α := { upd s a { o with rc := o.rc + 1 } with stk := s.stk ++ [.ref a j] }
    have h1 : s1.mem[a]? = some (some { o with rc := o.rc + 1 }) := upd_get ho _
    refine withVar_run (w := .ref a j) (s1 := { upd s a o1 with stk := s.stk ++ [.ref a j] }) ?_ rfl ?_
    · refine (bind_eq (index_in (s := s1) (slot_append hs) h1 (by rw [hh.size]; exact hi))).trans ?_
      refine (refAssign_same (o := { o with rc := o.rc + 1 + 1 }) (upd_get h1 _) hh.num hy (hh.elem j x hx) (by show 2 ≤ o.rc + 1 + 1; omega)).trans ?_
      simp [upd, s1, o1]
    · exact detach_upd (v := V.ref a j) (s := s) (o := o1) rfl ho (by simp [o1]; omega)
  have hm := hh.set hi (Env.conv k k x)
  refine ⟨_, (bind_eq he).trans hset, ⟨a, _, hs, upd_get ho _, hko, ?_, ?_⟩, (only_upd _ _ _).onlyArray hs⟩
  · rw [List.length_set]
    exact hh.size
  · simp only [o1, hko]
    exact hm.elem

/-- Numbers with a real and an imaginary part.  A `cdouble` becomes any type, also its own, by way of its real part, and a `cfloat`
    any type but its own (lube/var.cpp:650-657, 690-695). -/
@[reducible] def cEnv : Env (Int × Int) where
  conv j k x := if j = .cdouble ∨ j = .cfloat ∧ k ≠ .cfloat then (x.1, 0) else x
  nul := (0, 0)
  parse _ _ := none
  less _ _ _ := false
  differ _ _ _ := false

attribute [local instance] cEnv

/-- The theorems on arrays of other types apply to such numbers. -/
theorem cConv : ConvSame (Int × Int) := by
  intro k x hk
  cases k <;> first | rfl | exact absurd rfl hk

/-- An element assigned to another place of its array loses its imaginary part. -/
theorem complex_element_real {s : State (Int × Int)} (hr : Reach s) {n i j : Nat} {xs : List (Int × Int)} {z : Int × Int}
    (h : Contents s n .cdouble xs) (hi : i < xs.length) (hz : xs[j]? = some z) :
    ∃ s', run (.setElem n i (.elem n j)) s = .ok () s' ∧ Contents s' n .cdouble (xs.set i (realOnly z)) ∧ OnlyArray s s' n :=
  own_element_converts hr ⟨by decide, by decide⟩ h hi hz

/-- Removing an element, those behind it lose their imaginary parts. -/
theorem complex_remove_real {s : State (Int × Int)} (hr : Reach s) {n i : Nat} {xs : List (Int × Int)}
    (h : Contents s n .cdouble xs) (hi : i < xs.length) (hn : Fits xs) :
    ∃ s', run (.decl (.remove n i)) s = .ok () s' ∧ Contents s' n .cdouble (xs.take i ++ (xs.drop (i + 1)).map realOnly) :=
  remove_converts hr ⟨by decide, by decide⟩ h hi hn

/-- Inserting numbers, they and those behind them lose their imaginary parts. -/
theorem complex_insert_real {s : State (Int × Int)} (hr : Reach s) {n m p : Nat} {xs ys : List (Int × Int)}
    (h : Contents s n .cdouble xs) (h' : Contents s m .cdouble ys) (hd : Separate s n m) (hp : p ≤ xs.length) (hn : Fits (xs ++ ys)) :
    ∃ s', run (.insert n (.name m) p) s = .ok () s' ∧
      Contents s' n .cdouble (xs.take p ++ ys.map realOnly ++ (xs.drop p).map realOnly) ∧ Contents s' m .cdouble ys ∧ OnlyArray s s' n :=
  insert_converts hr ⟨by decide, by decide⟩ ⟨by decide, by decide⟩ h h' hd hp hn

/-- Numbers appended from a variable lose theirs. -/
theorem complex_append_real {s : State (Int × Int)} (hr : Reach s) {n m : Nat} {xs ys : List (Int × Int)}
    (h : Contents s n .cdouble xs) (h' : Contents s m .cdouble ys) (hd : Separate s n m) (hn : Fits (xs ++ ys)) :
    ∃ s', run (.appendVar n (.name m)) s = .ok () s' ∧ Contents s' n .cdouble (xs ++ ys.map realOnly) ∧ Contents s' m .cdouble ys ∧
      OnlyArray s s' n :=
  append_array_partial hr ⟨by decide, by decide⟩ ⟨by decide, by decide⟩ h h' hd hn

/-- The state after a program that does not fail. -/
def cfinal (p : List (Stmt (Int × Int))) : State (Int × Int) := match exec p ⟨[], []⟩ with
  | .ok _ s => s
  | _ => ⟨[], []⟩

/-- `x = 1+i; x.push(2+2i); x.push(3+3i); y = 4+4i;` -/
def progZ : List (Stmt (Int × Int)) :=
  [.decl (.num .cdouble (1, 1)), .push 0 (.num .cdouble (2, 2)), .push 0 (.num .cdouble (3, 3)), .decl (.num .cdouble (4, 4))]

theorem progZ_stk : (cfinal progZ).stk = [.arr 0, .arr 3] := by decide +kernel

theorem progZ_reach : Reach (cfinal progZ) := reach_exec progZ .start (by decide +kernel)

theorem ccontents_of {s : State (Int × Int)} {n : Nat} {a : Addr} {o : Obj (Int × Int)} (xs : List (Int × Int)) (h1 : s.stk[n]? = some (.arr a))
    (h2 : s.mem[a]? = some (some o)) (hs : o.size = xs.length) (h3 : o.cells.take xs.length = xs.map (fun x => .raw (some x)))
    : Contents s n o.kind xs := by
  refine ⟨a, o, h1, h2, rfl, hs, fun i x hx => ?_⟩
  have hi := (List.getElem?_eq_some_iff.1 hx).1
  have := congrArg (·[i]?) h3
  simp only [List.getElem?_take, if_pos hi, List.getElem?_map, hx] at this
  exact this

theorem progZ_contents : Contents (cfinal progZ) 0 .cdouble [(1, 1), (2, 2), (3, 3)] :=
  ccontents_of (a := 0) (o := ⟨.cdouble, 3, 1, [.raw (some (1, 1)), .raw (some (2, 2)), .raw (some (3, 3)), .raw none, .raw none, .raw none, .raw none, .raw none]⟩)
    _ (by decide +kernel) (by decide +kernel) rfl rfl

theorem progZ_other : Contents (cfinal progZ) 1 .cdouble [(4, 4)] :=
  ccontents_of (a := 3) (o := ⟨.cdouble, 1, 1, [.raw (some (4, 4)), .raw none, .raw none, .raw none, .raw none, .raw none, .raw none, .raw none]⟩)
    _ (by decide +kernel) (by decide +kernel) rfl rfl

theorem progZ_separate : Separate (cfinal progZ) 0 1 := by
  intro a b ha hb
  rw [progZ_stk] at ha hb
  cases ha
  cases hb
  decide

/-- The numbers 1+i, 2+2i, 3+3i and operations on them; and 4+4i. -/
example : CValidOps [.push (5, 5), .unshift (0, 7), .set 1 (9, 9), .shift, .pop, .presize 30, .append [(6, 6)], .truncate 3] [((1 : Int), (1 : Int)), (2, 2), (3, 3)] ∧
    clistOps [.push (5, 5), .unshift (0, 7), .set 1 (9, 9), .shift, .pop, .presize 30, .append [(6, 6)], .truncate 3] [((1 : Int), (1 : Int)), (2, 2), (3, 3)] =
      [(9, 9), (2, 2), (3, 3)] ∧ Fits ([((1 : Int), (1 : Int)), (2, 2), (3, 3)] ++ [(4, 4)]) := by
  refine ⟨?_, rfl, by simp [Fits]⟩
  simp [CValidOps, COp.Valid, COp.list, Fits]

/-- The contents are unique. -/
theorem ccontents_unique {s : State α} {n : Nat} {k k' : Kind} {xs ys : List α} (h : Contents s n k xs) (h' : Contents s n k' ys) : xs = ys := by
  obtain ⟨a, o, h1, h2, -, h3, h4⟩ := h
  obtain ⟨b, p, h5, h6, -, h7, h8⟩ := h'
  rw [h1] at h5
  cases h5
  rw [h2] at h6
  cases h6
  refine List.ext_getElem (h3.symm.trans h7) fun i hi hj => ?_
  have e := (h4 i _ (List.getElem?_eq_getElem hi)).symm.trans (h8 i _ (List.getElem?_eq_getElem hj))
  simpa using e

/-- C153: elements keep their values when they are copied or moved within arrays. -/
def ElementKept : Prop := ∀ (s : State (Int × Int)) (n i j : Nat) (k : Kind) (xs : List (Int × Int)) (z : Int × Int), Reach s → Number k →
  Contents s n k xs → i < xs.length → xs[j]? = some z → ∀ s', run (.setElem n i (.elem n j)) s = .ok () s' → Contents s' n k (xs.set i z)

def RemoveKept : Prop := ∀ (s : State (Int × Int)) (n i : Nat) (k : Kind) (xs : List (Int × Int)), Reach s → Number k →
  Contents s n k xs → i < xs.length → ∀ s', run (.decl (.remove n i)) s = .ok () s' → Contents s' n k (xs.eraseIdx i)

def InsertKept : Prop := ∀ (s : State (Int × Int)) (n m p : Nat) (k : Kind) (xs ys : List (Int × Int)), Reach s → Number k →
  Contents s n k xs → Contents s m k ys → Separate s n m → p ≤ xs.length → ∀ s', run (.insert n (.name m) p) s = .ok () s' →
  Contents s' n k (xs.take p ++ ys ++ xs.drop p)

def AppendKept : Prop := ∀ (s : State (Int × Int)) (n m : Nat) (k : Kind) (xs ys : List (Int × Int)), Reach s → Number k →
  Contents s n k xs → Contents s m k ys → Separate s n m → ∀ s', run (.appendVar n (.name m)) s = .ok () s' → Contents s' n k (xs ++ ys)

/-- None of this is so for `cdouble`. -/
theorem complex_parts_lost : ¬ ElementKept ∧ ¬ RemoveKept ∧ ¬ InsertKept ∧ ¬ AppendKept := by
  have hk : Number .cdouble := ⟨by decide, by decide⟩
  refine ⟨fun h => ?_, fun h => ?_, fun h => ?_, fun h => ?_⟩
  · obtain ⟨s', e, h1, -⟩ := complex_element_real (i := 0) (j := 1) progZ_reach progZ_contents (by simp) rfl
    exact absurd (ccontents_unique h1 (h _ _ 0 1 _ _ _ progZ_reach hk progZ_contents (by simp) rfl s' e)) (by decide)
  · obtain ⟨s', e, h1⟩ := complex_remove_real (i := 0) progZ_reach progZ_contents (by simp) (by simp [Fits])
    exact absurd (ccontents_unique h1 (h _ _ 0 _ _ progZ_reach hk progZ_contents (by simp) s' e)) (by decide)
  · obtain ⟨s', e, h1, -⟩ := complex_insert_real (p := 1) progZ_reach progZ_contents progZ_other progZ_separate (by simp) (by simp [Fits])
    exact absurd (ccontents_unique h1 (h _ _ _ 1 _ _ _ progZ_reach hk progZ_contents progZ_other progZ_separate (by simp) s' e)) (by decide)
  · obtain ⟨s', e, h1, -⟩ := complex_append_real progZ_reach progZ_contents progZ_other progZ_separate (by simp [Fits])
    exact absurd (ccontents_unique h1 (h _ _ _ _ _ _ progZ_reach hk progZ_contents progZ_other progZ_separate s' e)) (by decide)

/-- For the other types of numbers it is so: an element assigned to another place. -/
theorem element_kept_partial [Env α] (hc : ConvSame α) {s : State α} (hr : Reach s) {n i j : Nat} {k : Kind} {xs : List α} {x : α}
    (hk : Scalar k) (h : Contents s n k xs) (hi : i < xs.length) (hx : xs[j]? = some x) :
    ∃ s', run (.setElem n i (.elem n j)) s = .ok () s' ∧ Contents s' n k (xs.set i x) ∧ OnlyArray s s' n := by
  have := own_element_converts hr hk.1 h hi hx
  rwa [hc k x hk.2] at this

#print axioms complex_is_list_partial
#print axioms own_element_converts
#print axioms complex_element_real
#print axioms complex_remove_real
#print axioms complex_insert_real
#print axioms complex_append_real
#print axioms complex_parts_lost
#print axioms element_kept_partial

end Libube.MemProps

import Verif.Lemmas.MemOwn
import Verif.Spec.MemOwn
import Verif.Props.MemComplex

/-! # Elements of arrays as arguments (C154)

`x[j]` is a reference into the array.  The operations that take it by value get the reference, not the number. -/

namespace Libube.MemProps

open Mem MemSpec

variable {α : Type}

/-- `x.push(x[j])` for numbers of all types: a copy of element `j`, converted from its type to itself, is added, also when the array
    is moved to make room. -/
theorem push_own_converts [Env α] {s : State α} (hr : Reach s) {n j : Nat} {k : Kind} {xs : List α} {x : α}
    (hk : Number k) (h : Contents s n k xs) (hx : xs[j]? = some x) (hn : Fits xs) :
    ∃ s', run (.push n (.elem n j)) s = .ok () s' ∧ Contents s' n k (xs ++ [Env.conv k k x]) ∧ OnlyArray s s' n := by
  obtain ⟨a, ⟨o, ho, hh, hko, hrc⟩, hs⟩ := good_of_contents hr hk h
  have hj := (List.getElem?_eq_some_iff.1 hx).1
  have he : eval (.elem n j) s = .ok (.ref a j) (upd s a { o with rc := o.rc + 1 }) := index_in hs ho (by rw [hh.size]; exact hj)
  obtain ⟨o', h1, h2, h3, h4⟩ := push_own (s := upd s a { o with rc := o.rc + 1 }) (o := { o with rc := o.rc + 1 })
    hs (upd_get ho _) (hh.rc _) hx hn (by simp; omega)
  rw [upd_upd] at h1
  simp only [hko] at h2
  refine ⟨_, (bind_eq he).trans h1, ⟨a, o', hs, upd_get ho _, h3.trans hko, ?_, h2.elem⟩, (only_upd _ _ _).onlyArray hs⟩
  rw [List.length_append]
  exact h2.size

/-- C154 for `push` and numbers other than `cdouble`: the element is added. -/
theorem push_own_partial [Env α] (hc : ConvSame α) {s : State α} (hr : Reach s) {n j : Nat} {k : Kind} {xs : List α} {x : α}
    (hk : Scalar k) (h : Contents s n k xs) (hx : xs[j]? = some x) (hn : Fits xs) :
    ∃ s', run (.push n (.elem n j)) s = .ok () s' ∧ Contents s' n k (xs ++ [x]) ∧ OnlyArray s s' n := by
  have := push_own_converts hr hk.1 h hx hn
  rwa [hc k x hk.2] at this

/-- `x.unshift(x[j])` puts element `j - 1` in front, for numbers of all types; element 0 if `j` is 0. -/
theorem unshift_own_before [Env α] {s : State α} (hr : Reach s) {n j : Nat} {k : Kind} {xs : List α} {x : α}
    (hk : Number k) (h : Contents s n k xs) (hj : j < xs.length) (hx : xs[j - 1]? = some x) (hn : Fits xs) :
    ∃ s', run (.unshift n (.elem n j)) s = .ok () s' ∧ Contents s' n k (x :: xs) ∧ OnlyArray s s' n := by
  obtain ⟨a, ⟨o, ho, hh, hko, hrc⟩, hs⟩ := good_of_contents hr hk h
  have he : eval (.elem n j) s = .ok (.ref a j) (upd s a { o with rc := o.rc + 1 }) := index_in hs ho (by rw [hh.size]; exact hj)
  obtain ⟨o', h1, h2, -, h3, h4⟩ := unshift_own (s := upd s a { o with rc := o.rc + 1 }) (o := { o with rc := o.rc + 1 })
    hs (upd_get ho _) (hh.rc _) hj hx hn (by simp; omega)
  rw [upd_upd] at h1
  exact ⟨_, (bind_eq he).trans h1, ⟨a, o', hs, upd_get ho _, h2.trans hko, h3, h4⟩, (only_upd _ _ _).onlyArray hs⟩

/-- `x.insert(x[j], p)` throws, for numbers of all types, and leaves the array with one element more: those from `p` on have moved. -/
theorem insert_own_throws [Env α] {s : State α} (hr : Reach s) {n j p : Nat} {k : Kind} {xs : List α}
    (hk : Number k) (h : Contents s n k xs) (hj : j < xs.length) (hp : p ≤ xs.length) (hn : Fits xs) :
    ∃ s', run (.insert n (.elem n j) p) s = .thrown (.error "Heap::derefInt: Not a reference") s' ∧
      Begins s' n k (xs.length + 1) (xs.take p ++ (xs.drop p).take 1 ++ (xs.drop p).map (Env.conv k k)) ∧ OnlyArray s s' n := by
  obtain ⟨a, ⟨o, ho, hh, hko, hrc⟩, hs⟩ := good_of_contents hr hk h
  have he : eval (.elem n j) s = .ok (.ref a j) (upd s a { o with rc := o.rc + 1 }) := index_in hs ho (by rw [hh.size]; exact hj)
  let s1 : State α := { upd s a { o with rc := o.rc + 1 } with stk := s.stk ++ [.ref a j] }
  have h1 : s1.mem[a]? = some (some { o with rc := o.rc + 1 }) := upd_get ho _
  obtain ⟨o', e, h2, h3, h4, h5⟩ := insertNums_ref (k := n) (kv := s.stk.length) (a := a) (b := a) (j := j) (p := p) (s1 := s1)
    (slot_append hs) (by simp [s1]) h1 (hh.rc (o.rc + 1)) hp (by simp) hn ⟨_, h1, hh.num⟩
    (fun t ht => ⟨t, upd_get h1 t, by rw [ht]; exact hh.num⟩)
  simp only [hko] at h5
  refine ⟨upd s a { o' with rc := o'.rc - 1 }, (bind_eq he).trans ?_, ⟨a, _, hs, upd_get ho _, h2.trans hko, h4, h5⟩, (only_upd _ _ _).onlyArray hs⟩
  rw [insert_eq (s := upd s a { o with rc := o.rc + 1 }) hs (upd_get ho _) (hh.rc _) hp]
  refine withVar_thr (w := .ref a j) (s1 := { upd s a o' with stk := s.stk ++ [.ref a j] }) (e.trans ?_) rfl
    (detach_upd (v := V.ref a j) (s := s) (o := o') rfl ho (by rw [h3]; simp; omega))
  simp [upd, s1]

/-- So does `x.insert(y[j], p)` for an element of another array, whose numbers may be of another type. -/
theorem insert_element_throws [Env α] {s : State α} (hr : Reach s) {n m j p : Nat} {k k' : Kind} {xs ys : List α}
    (hk : Number k) (hk' : Number k') (h : Contents s n k xs) (h' : Contents s m k' ys) (hd : Separate s n m) (hj : j < ys.length)
    (hp : p ≤ xs.length) (hn : Fits xs) :
    ∃ s', run (.insert n (.elem m j) p) s = .thrown (.error "Heap::derefInt: Not a reference") s' ∧
      Begins s' n k (xs.length + 1) (xs.take p ++ (xs.drop p).take 1 ++ (xs.drop p).map (Env.conv k k)) ∧ OnlyArray s s' n := by
  obtain ⟨a, ⟨o, ho, hh, hko, hrc⟩, hs⟩ := good_of_contents hr hk h
  obtain ⟨b, ⟨ob, hob, hhb, hkb, hrb⟩, hsb⟩ := good_of_contents hr hk' h'
  have hab : a ≠ b := hd a b hs hsb
  have he : eval (.elem m j) s = .ok (.ref b j) (upd s b { ob with rc := ob.rc + 1 }) := index_in hsb hob (by rw [hhb.size]; exact hj)
  let s0 : State α := upd s b { ob with rc := ob.rc + 1 }
  have ho0 : s0.mem[a]? = some (some o) := (upd_other (Ne.symm hab) _).trans ho
  let s1 : State α := { s0 with stk := s.stk ++ [.ref b j] }
  have hb1 : s1.mem[b]? = some (some { ob with rc := ob.rc + 1 }) := upd_get hob _
  obtain ⟨o', e, h2, h3, h4, h5⟩ := insertNums_ref (k := n) (kv := s.stk.length) (a := a) (b := b) (j := j) (p := p) (s1 := s1)
    (slot_append hs) (by simp [s1]) ho0 hh hp hrc hn ⟨_, hb1, hhb.num⟩
    (fun t _ => ⟨_, (upd_other hab t).trans hb1, hhb.num⟩)
  simp only [hko] at h5
  refine ⟨upd s a o', (bind_eq he).trans ?_, ⟨a, _, hs, upd_get ho _, h2.trans hko, h4, h5⟩, (only_upd _ _ _).onlyArray hs⟩
  rw [insert_eq (s := s0) hs ho0 hh hp]
  refine withVar_thr (w := .ref b j) (s1 := { upd s0 a o' with stk := s.stk ++ [.ref b j] }) (e.trans rfl) rfl ?_
  show detachV (.ref b j) (upd (upd s b _) a o') = _
  rw [upd_comm (Ne.symm hab), detach_upd (v := V.ref b j) (s := upd s a o') rfl ((upd_other hab _).trans hob) (by simp; omega)]
  simp only [Nat.add_sub_cancel]
  rw [upd_self ((upd_other hab _).trans hob)]

/-- `x.append(x[j])` is `x.insert(x[j], x.size())` (lube/var.h:143). -/
theorem append_own_throws [Env α] {s : State α} (hr : Reach s) {n j : Nat} {k : Kind} {xs : List α}
    (hk : Number k) (h : Contents s n k xs) (hj : j < xs.length) (hn : Fits xs) :
    ∃ s', run (.appendVar n (.elem n j)) s = .thrown (.error "Heap::derefInt: Not a reference") s' ∧
      Begins s' n k (xs.length + 1) xs ∧ OnlyArray s s' n := by
  obtain ⟨s', e, h1, h2⟩ := insert_own_throws (p := xs.length) hr hk h hj (Nat.le_refl _) hn
  obtain ⟨a, ⟨o, ho, hh, hko, hrc⟩, hs⟩ := good_of_contents hr hk h
  have he : eval (.elem n j) s = .ok (.ref a j) (upd s a { o with rc := o.rc + 1 }) := index_in hs ho (by rw [hh.size]; exact hj)
  refine ⟨s', ?_, by simpa using h1, h2⟩
  rw [← e]
  refine (bind_eq he).trans (Eq.trans ?_ (bind_eq he).symm)
  refine (bind_eq (readSlot (s := upd s a { o with rc := o.rc + 1 }) hs)).trans ?_
  refine (bind_eq (sizeV_arr (upd_get ho _))).trans ?_
  show insert (.slot n) (.ref a j) o.size _ = _
  rw [hh.size]

attribute [local instance] intEnv cEnv

/-- C154: an element of the array can be given to its operations like any number of its value. -/
def OwnUnshift : Prop := ∀ (s : State Int) (n j : Nat) (xs : List Int) (x : Int), Reach s → Contents s n .int xs → xs[j]? = some x → Fits xs →
  ∃ s', run (.unshift n (.elem n j)) s = .ok () s' ∧ Contents s' n .int (x :: xs)

def OwnInsert : Prop := ∀ (s : State Int) (n j p : Nat) (xs : List Int) (x : Int), Reach s → Contents s n .int xs → xs[j]? = some x → p ≤ xs.length →
  Fits xs → ∃ s', run (.insert n (.elem n j) p) s = .ok () s' ∧ Contents s' n .int (xs.take p ++ [x] ++ xs.drop p)

/-- A failure leaves the array as it was. -/
def OwnFailure : Prop := ∀ (s s' : State Int) (n j p : Nat) (xs : List Int) (e : Exn), Reach s → Contents s n .int xs →
  run (.insert n (.elem n j) p) s = .thrown e s' → Contents s' n .int xs

/-- It is not so for `unshift` and `insert`. -/
theorem own_element_refused : ¬ OwnUnshift ∧ ¬ OwnInsert ∧ ¬ OwnFailure := by
  have hr : Reach (final prog123) := reach_exec prog123 .start prog123_ok
  have hk : Number .int := ⟨by decide, by decide⟩
  refine ⟨fun h => ?_, fun h => ?_, fun h => ?_⟩
  · obtain ⟨s1, e1, h1⟩ := h _ 0 1 _ 2 hr prog123_contents rfl (by simp [Fits])
    obtain ⟨s2, e2, h2, -⟩ := unshift_own_before (j := 1) hr hk prog123_contents (by simp) rfl (by simp [Fits])
    rw [e1] at e2
    cases e2
    exact absurd (ccontents_unique h1 h2) (by decide)
  · obtain ⟨s1, e1, -⟩ := h _ 0 1 0 _ 2 hr prog123_contents rfl (by simp) (by simp [Fits])
    obtain ⟨s2, e2, -⟩ := insert_own_throws (j := 1) (p := 0) hr hk prog123_contents (by simp) (by simp) (by simp [Fits])
    rw [e1] at e2
    cases e2
  · obtain ⟨s2, e2, ⟨a, o, g1, g2, -, g3, -⟩, -⟩ := insert_own_throws (j := 1) (p := 0) hr hk prog123_contents (by simp) (by simp) (by simp [Fits])
    obtain ⟨b, q, g4, g5, -, g6, -⟩ := h _ s2 0 1 0 _ _ hr prog123_contents e2
    rw [g1] at g4
    cases g4
    rw [g2] at g5
    cases g5
    rw [g3] at g6
    simp at g6

/-- The hypotheses hold of the array 1, 2, 3 and of the complex numbers of `progZ`, where 4+4i is in another array. -/
example : Reach (final prog123) ∧ Contents (final prog123) 0 .int [1, 2, 3] ∧ Number .int ∧ Scalar .int ∧ Fits [(1 : Int), 2, 3] ∧
    Contents (cfinal progZ) 0 .cdouble [(1, 1), (2, 2), (3, 3)] ∧ Contents (cfinal progZ) 1 .cdouble [(4, 4)] ∧ Separate (cfinal progZ) 0 1 :=
  ⟨reach_exec prog123 .start prog123_ok, prog123_contents, ⟨by decide, by decide⟩, ⟨⟨by decide, by decide⟩, by decide⟩, by simp [Fits],
    progZ_contents, progZ_other, progZ_separate⟩

#print axioms push_own_converts
#print axioms push_own_partial
#print axioms unshift_own_before
#print axioms insert_own_throws
#print axioms insert_element_throws
#print axioms append_own_throws
#print axioms own_element_refused

end Libube.MemProps

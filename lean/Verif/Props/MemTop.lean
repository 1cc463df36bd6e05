import Verif.Spec.MemTop
import Verif.Props.MemVars
import Verif.Props.MemMaps

/-! # The top of a stack (C174) -/

namespace Libube.MemProps

open Mem MemSpec

variable {α : Type}

attribute [local instance] intEnv

/-- `y = x.top()` refers to the last element and changes nothing, whatever the type of the array. -/
theorem top_partial [Env α] {s : State α} (hr : Reach s) {n : Nat} {k : Kind} {cs : List (Cell α)} {c : Cell α} (h : Elems s n k (cs ++ [c])) :
    ∃ s', run (.decl (.top n)) s = .ok () s' ∧ s'.stk.length = s.stk.length + 1 ∧ s'.stk.take s.stk.length = s.stk ∧
      RefersLast s' s.stk.length n c ∧ Elems s' n k (cs ++ [c]) ∧ AllSame s s' := by
  obtain ⟨own, hi⟩ := reach_inv hr
  obtain ⟨a, o, h1, h2, h3, h4, h5⟩ := h
  obtain ⟨m1, e1, i1, ⟨rc, g⟩, k1⟩ := at_tot hi ⟨o.rc, h2⟩ cs.length
  have hsz : o.size = cs.length + 1 := by rw [h4]; simp
  have e : eval (.top n) s = .ok (.ref a cs.length) { s with mem := m1 } := by
    refine (bind_eq (readSlot h1)).trans ?_
    unfold Mem.top
    rw [bind_eq (sizeV_arr h2), hsz, show ((cs.length + 1 : Nat) : Int) - 1 = (cs.length : Int) by omega]
    exact e1
  have hst : (s.stk ++ [V.ref a cs.length])[n]? = some (.arr a) := slot_append h1
  exact ⟨⟨m1, s.stk ++ [.ref a cs.length]⟩, (bind_eq (m := eval (.top n)) e).trans rfl, by simp, by simp,
    ⟨a, _, cs.length, by simp, hst, g, hsz, h5 _ _ (by simp)⟩, ⟨a, _, hst, g, h3, h4, h5⟩, all_same k1⟩

theorem runs_reach [Env α] : ∀ {sts : List (Stmt α)} {s s' : State α}, Reach s → Runs sts s s' → Reach s'
  | [], _, _, hr, rfl => hr
  | _ :: _, _, _, hr, ⟨_, e, h⟩ => runs_reach (.ok hr e) h

/-- The same for an array used as a stack: after any operations on it, `top` is what is on top. -/
theorem stack_top_partial [Env α] {s : State α} (hr : Reach s) {n : Nat} {its : List (Item α)} (h : Items s n its) (ops : List (VOp α))
    (hv : ValidItemOps s ops its) {l : List (Item α)} {t : Item α} (ht : itemOps ops its = l ++ [t]) :
    ∃ s1 s' v, Runs (ops.map (VOp.stmt n)) s s1 ∧ run (.decl (.top n)) s1 = .ok () s' ∧ Denotes s' s.stk.length v ∧ t.Shown s1 v ∧ AllSame s1 s' := by
  obtain ⟨s1, e1, ⟨vs, h1, h2, h3⟩, hs, -⟩ := var_array_is_list_partial hr h ops hv
  have hr1 := runs_reach hr e1
  have hlen : vs.length = l.length + 1 := by rw [h2, ht]; simp
  obtain ⟨ws, v, rfl⟩ : ∃ ws v, vs = ws ++ [v] := ⟨vs.dropLast, vs.getLast (by rintro rfl; simp at hlen), (List.dropLast_append_getLast _).symm⟩
  have h1' : Elems s1 n .var (ws.map .var ++ [.var v]) := by
    have := h1
    unfold Vars at this
    rwa [List.map_append] at this
  obtain ⟨s', e2, -, -, ⟨a, o, i, g1, g2, g3, g4, g5⟩, ⟨b, p, q1, q2, q3, -⟩, hA⟩ := top_partial hr1 h1'
  rw [g2] at q1
  cases q1
  rw [g3] at q2
  cases q2
  rw [hs] at g1
  refine ⟨s1, s', v, e1, e2, .inr ⟨a, i, o, g1, g3, q3, g5⟩, h3 l.length t v (by rw [ht]; simp) ?_, hA⟩
  have : ws.length = l.length := by simpa using hlen
  simp [← this]

/-- The top of a number is the number. -/
theorem top_number [Env α] {s : State α} {n : Nat} {k : Kind} {x : α} (h : s.stk[n]? = some (.num k x)) : eval (.top n) s = .ok (.num k x) s := by
  have := at_number_partial h 0
  rw [if_pos rfl] at this
  refine Eq.trans ?_ this
  refine (bind_eq (readSlot h)).trans ?_
  refine Eq.trans ?_ (bind_eq (readSlot h)).symm
  rfl

/-- Nil has no top. -/
theorem top_nil [Env α] {s : State α} {n : Nat} (h : s.stk[n]? = some .nil) : eval (.top n) s = .thrown (.error "var::at(): uninitialised") s := by
  refine (bind_eq (readSlot h)).trans ?_
  simp [Mem.top, sizeV, derefV, bind_run, M.bind, pure_run, at', attachV, V.ptr, withVar, dereference, readTemp, throwE, detachV, getMem, release, liftO, setMem]

theorem reference_self {a : Addr} {s : State α} {o : Obj α} (h : s.mem[a]? = some (some o)) :
    reference (.arr a) (-1) s = .ok (.arr a) (upd s a { o with rc := o.rc + 1 }) := by
  unfold reference
  rw [bind_eq (typeV_arr a s)]
  simp only [show ¬ ((-1 : Int) < -1) by omega, if_false, bind_eq (attach_run (v := V.arr a) rfl h)]
  rfl

theorem at_self [Env α] {a : Addr} {s : State α} {o : Obj α} (h : s.mem[a]? = some (some o)) :
    at' (.arr a) (-1) s = .ok (.arr a) (upd s a { o with rc := o.rc + 1 }) := by
  unfold at'
  rw [bind_eq (attach_run (v := V.arr a) rfl h)]
  refine withVar_run (w := .arr a) (s1 := { upd s a { o with rc := o.rc + 2 } with stk := s.stk ++ [.arr a] }) ?_ rfl ?_
  · have hr := readTemp (upd s a { o with rc := o.rc + 1 }).mem s.stk (.arr a)
    have hs : (upd s a { o with rc := o.rc + 1 }).stk = s.stk := rfl
    rw [hs]
    rw [bind_eq (dereference_arr hr), bind_eq hr]
    have h2 : ({ mem := (upd s a { o with rc := o.rc + 1 }).mem, stk := s.stk ++ [.arr a] } : State α).mem[a]? =
      some (some { o with rc := o.rc + 1 }) := upd_get h _
    have := reference_self h2
    simp only [this]
    simp [upd, List.set_set]
  · have h2 : ({ mem := (upd s a { o with rc := o.rc + 2 }).mem, stk := s.stk } : State α).mem[a]? =
      some (some { o with rc := o.rc + 2 }) := upd_get h _
    refine (detach_run (v := V.arr a) rfl h2 (by simp)).trans ?_
    simp [upd, List.set_set]

/-- The top of an empty array is refused. -/
def TopRefused : Prop := ∀ (s : State Int) (n : Nat) (k : Kind), Reach s → Elems s n k [] → ∃ e s', run (.decl (.top n)) s = .thrown e s'

/-- It is the array itself: index -1 is encoded as type 0, which is that of arrays. -/
theorem top_empty [Env α] {s : State α} {n : Nat} {k : Kind} (h : Elems s n k []) :
    ∃ s', run (.decl (.top n)) s = .ok () s' ∧ SameArray s' n s.stk.length := by
  obtain ⟨a, o, h1, h2, h3, h4, h5⟩ := h
  have hsz : o.size = 0 := h4
  have e : eval (.top n) s = .ok (.arr a) (upd s a { o with rc := o.rc + 1 }) := by
    refine (bind_eq (readSlot h1)).trans ?_
    unfold Mem.top
    rw [bind_eq (sizeV_arr h2)]
    show at' (.arr a) ((o.size : Int) - 1) s = _
    rw [show ((o.size : Int) - 1) = -1 by omega]
    exact at_self h2
  exact ⟨⟨(upd s a { o with rc := o.rc + 1 }).mem, s.stk ++ [.arr a]⟩, (bind_eq (m := eval (.top n)) e).trans rfl, a, slot_append h1, by simp⟩

/-- `x.push(5); x.push(6); x.pop(); x.pop();` -/
def progPopped : List (Stmt Int) := [.decl .nil, .push 0 (.num .int 5), .push 0 (.num .int 6), .eval (.pop 0), .eval (.pop 0)]

theorem progPopped_elems : Elems (final progPopped) 0 .int [] := by
  obtain ⟨o, ho, hk, hn⟩ : ∃ o, (final progPopped).mem[0]? = some (some o) ∧ o.kind = .int ∧ o.size = 0 := by
    have h : (match (final progPopped).mem[0]? with | some (some o) => decide (o.kind = .int ∧ o.size = 0) | _ => false) = true := by decide +kernel
    split at h
    · exact ⟨_, by assumption, of_decide_eq_true h⟩
    · cases h
  exact ⟨0, o, by decide +kernel, ho, hk, hn, fun i c hc => by cases hc⟩

theorem top_not_refused : ¬ TopRefused := by
  intro h
  obtain ⟨e, s', h1⟩ := h _ 0 .int (reach_exec progPopped .start (by decide +kernel)) progPopped_elems
  obtain ⟨s2, h2, -⟩ := top_empty progPopped_elems
  rw [h2] at h1
  cases h1

/-- So `y = x.top(); y.push(7);` makes `x` an array of one number. -/
theorem top_empty_push : ∃ o, (final (progPopped ++ [.decl (.top 0), .push 1 (.num .int 7)])).mem[0]? = some (some o) ∧ o.size = 1 ∧
    o.cells[0]? = some (.raw (some 7)) ∧ (final (progPopped ++ [.decl (.top 0), .push 1 (.num .int 7)])).stk = [.arr 0, .arr 0] := by
  have h : (match (final (progPopped ++ [.decl (.top 0), .push 1 (.num .int 7)])).mem[0]? with
    | some (some o) => decide (o.size = 1 ∧ o.cells[0]? = some (.raw (some 7))) | _ => false) = true := by decide +kernel
  split at h
  · exact ⟨_, by assumption, (of_decide_eq_true h).1, (of_decide_eq_true h).2, by decide +kernel⟩
  · cases h

/-! ## Cases that meet the hypotheses -/

example : Reach (final progVars) ∧ Elems (final progVars) 0 .var ([.var (.arr 0)] ++ [.var (.num .int 5)]) := ⟨progVars_reach, progVars_elems⟩

example : ∃ ops l, Items (final progTwo) 0 [.str [65], .num .int 5] ∧ ValidItemOps (final progTwo) ops [.str [65], .num .int 5] ∧
    itemOps ops [.str [65], .num .int 5] = l ++ [.num .long (7 : Int)] :=
  ⟨[.pop, .push (.num .long 7)], [.str [65]], progTwo_items, by simp [ValidItemOps, VOp.Valid, Item.Writable, Fits, VOp.list, Scalar, Number], rfl⟩

example : (final ([.decl (.num .int 5), .decl .nil] : List (Stmt Int))).stk = [.num .int 5, .nil] := by decide +kernel

#print axioms top_partial
#print axioms stack_top_partial
#print axioms top_number
#print axioms top_nil
#print axioms top_empty
#print axioms top_not_refused
#print axioms top_empty_push

end Libube.MemProps

import Verif.Spec.MemBuild
import Verif.Props.MemNil
import Verif.Props.MemAppend
import Verif.Lemmas.MemComplex
import Verif.Lemmas.MemOwn

/-! # Arrays of vars built from nil (C166) -/

namespace Libube.MemProps

open Mem MemSpec

variable {α : Type}

/-- A new array of vars. -/
def fresh (m : Nat) : Obj α := ⟨.var, m, 1, List.replicate 8 (.var .nil)⟩

theorem resizeObj_fresh [Env α] {m : Nat} (hm : m ≤ 1) : resizeObj (⟨.var, 0, 1, []⟩ : Obj α) m = .ok (fresh m) ∧ resizeObj (fresh 0 : Obj α) m = .ok (fresh m) := by
  have ha : Alloc.allocSize (m : Int) = .ok 8 := by
    rw [Alloc.allocSize_eq _ (by omega) (by omega)]
    have : max ((m : Int).toNat) 8 = 8 := by omega
    rw [this]
    rfl
  constructor
  · show (Alloc.allocSize (if (Kind.var : Kind) = .char then (m : Int) + 1 else m) >>= _) = _
    rw [if_neg (by decide), ha]
    rfl
  · show (Alloc.allocSize (if (Kind.var : Kind) = .char then (m : Int) + 1 else m) >>= _) = _
    rw [if_neg (by decide), ha]
    rfl

/-- A variable that is nil made an array. -/
def opened (s : State α) (n m : Nat) : State α := ⟨s.mem ++ [some (fresh m)], s.stk.set n (.arr s.mem.length)⟩

theorem resize_nil [Env α] {s : State α} {n m : Nat} (h : s.stk[n]? = some .nil) (hm : m ≤ 1) : resize (.slot n) m s = .ok () (opened s n m) := by
  have hlt := (List.getElem?_eq_some_iff.1 h).1
  unfold resize
  rw [if_neg (by omega)]
  have hd : dereference (.slot n) s = .ok (.slot n) s := by
    unfold dereference
    exact (bind_eq (readSlot h)).trans rfl
  refine (bind_eq hd).trans ((bind_eq (readSlot h)).trans ?_)
  simp only
  unfold wrap
  refine (bind_eq (readSlot h)).trans ?_
  simp only
  have e4 : newHeap m none s = .ok s.mem.length { s with mem := s.mem ++ [some (fresh m)] } := by
    unfold newHeap
    simp only [Option.getD_none]
    rw [(resizeObj_fresh hm).1]
    rfl
  refine (bind_eq e4).trans ?_
  unfold writeLoc
  exact if_pos hlt

/-- The first element of nil is that of an empty array. -/
theorem index_nil [Env α] {s : State α} {n : Nat} (h : s.stk[n]? = some .nil) : Mem.index (.slot n) 0 s = Mem.index (.slot n) 0 (opened s n 0) := by
  have hlt := (List.getElem?_eq_some_iff.1 h).1
  have hs : (opened s n 0).stk[n]? = some (.arr s.mem.length) := List.getElem?_set_self hlt
  have hm : (opened s n 0).mem[s.mem.length]? = some (some (fresh 0)) := by simp [opened]
  have e1 : resize (.slot n) (0 + 1) s = .ok () (opened s n 1) := resize_nil (m := 1) h (le_refl _)
  have e2 : resize (.slot n) (0 + 1) (opened s n 0) = .ok () (opened s n 1) := by
    refine (resize_arr (m := 1) hs).trans ((heapResize_obj hm (resizeObj_fresh (le_refl _)).2).trans ?_)
    simp [opened, upd]
  have l : Mem.index (.slot n) 0 s = (array (.slot n) >>= fun _ => readLoc (.slot n) >>= fun v => reference v 0) (opened s n 1) := by
    unfold Mem.index
    refine (bind_eq (readSlot h)).trans ?_
    simp only
    unfold indexPlain
    rw [if_neg (by decide)]
    refine (bind_eq (readSlot h)).trans ?_
    have hz : sizeV (.nil : V α) s = .ok 0 s := rfl
    refine (bind_eq hz).trans ?_
    rw [if_pos (by decide)]
    exact bind_eq e1
  have r : Mem.index (.slot n) 0 (opened s n 0) = (array (.slot n) >>= fun _ => readLoc (.slot n) >>= fun v => reference v 0) (opened s n 1) := by
    unfold Mem.index
    refine (bind_eq (readSlot hs)).trans ?_
    simp only
    unfold indexPlain
    rw [if_neg (by decide)]
    refine (bind_eq (readSlot hs)).trans ?_
    refine (bind_eq (sizeV_arr hm)).trans ?_
    rw [if_pos (by simp [fresh])]
    exact bind_eq e2
  rw [l, r]

theorem withVar_same {β : Type} {v : V α} {f : Loc → M α β} {s t : State α} (hl : t.stk.length = s.stk.length)
    (h : f (.slot s.stk.length) ⟨s.mem, s.stk ++ [v]⟩ = f (.slot s.stk.length) ⟨t.mem, t.stk ++ [v]⟩) : withVar v f s = withVar v f t := by
  unfold withVar
  simp only [hl]
  rw [h]

theorem bind_same {β γ : Type} {m : M α β} {s t : State α} (h : m s = m t) (f : β → M α γ) : (m >>= f) s = (m >>= f) t := by
  rw [bind_run, bind_run]
  unfold M.bind
  rw [h]

theorem setIndex_nil [Env α] {s : State α} {n : Nat} (h : s.stk[n]? = some .nil) (v : V α) : setIndex (.slot n) 0 v s = setIndex (.slot n) 0 v (opened s n 0) := by
  have hlt := (List.getElem?_eq_some_iff.1 h).1
  have e := index_nil (s := ⟨s.mem, s.stk ++ [v]⟩) (slot_append h)
  have ho : opened ⟨s.mem, s.stk ++ [v]⟩ n 0 = ⟨(opened s n 0).mem, (opened s n 0).stk ++ [v]⟩ := by
    simp [opened, List.set_append_left _ _ hlt]
  rw [ho] at e
  unfold setIndex
  exact withVar_same (by simp [opened]) (bind_same e _)

/-- What is pushed onto nil and has no type of its own becomes the only element of a new array. -/
theorem push_nil_va [Env α] {s : State α} {own : List Addr} {n : Nat} {v w : V α} (h : s.stk[n]? = some .nil) (hi : Inv s (v.ptr.toList ++ own)) (hd : Deno s.mem v w)
    (ht : ∀ t : State α, typeV v t = .ok none t) :
    ∃ a mem' cells', s.mem.length ≤ a ∧ push (.slot n) v s = .ok () ⟨mem', s.stk.set n (.arr a)⟩ ∧ VA ⟨mem', s.stk.set n (.arr a)⟩ own n a [w] cells' ∧ Kept s.mem mem' := by
  have hlt := (List.getElem?_eq_some_iff.1 h).1
  have upv : ∀ b ∈ v.ptr.toList, b ∈ stkPtrs (s.stk ++ [v]) := fun b hb => by rw [stkPtrs_append]; exact List.mem_append_right _ hb
  obtain ⟨m1, e1, i1, k1, l1⟩ := attach_tot hi.push (v := v) (fun b hb => hi.push.stk_live (upv b hb))
  simp only at e1 i1 k1 l1
  have hs1 : (⟨m1, s.stk ++ [v]⟩ : State α).stk[n]? = some .nil := slot_append h
  have e2 := resize_nil (m := 0) hs1 (by decide)
  have i2 : Inv (opened ⟨m1, s.stk ++ [v]⟩ n 0) (v.ptr.toList ++ own) := by
    simpa using (resize_keep (lk := false) (.slot n) 0).inv (own := v.ptr.toList ++ own) (by simpa using i1) e2
  have ho : opened ⟨m1, s.stk ++ [v]⟩ n 0 = ⟨m1 ++ [some (fresh 0)], s.stk.set n (.arr m1.length) ++ [v]⟩ := by
    simp [opened, List.set_append_left _ _ hlt]
  have e3 := setIndex_nil hs1 v
  rw [ho] at i2 e3
  have upv' : ∀ b ∈ v.ptr.toList, b ∈ stkPtrs (s.stk.set n (.arr m1.length) ++ [v]) := fun b hb => by rw [stkPtrs_append]; exact List.mem_append_right _ hb
  have k2 : Kept m1 (m1 ++ [some (fresh 0)]) := ⟨by simp, fun b o' _ hb ho => ⟨o', by rw [List.getElem?_append_left hb] at ho; exact ho, rfl, rfl, rfl⟩⟩
  have hva : VA ⟨m1 ++ [some (fresh 0)], s.stk.set n (.arr m1.length) ++ [v]⟩ (v.ptr.toList ++ own) n m1.length [] (List.replicate 8 (.var .nil)) := by
    refine ⟨i2, slot_append (List.getElem?_set_self hlt), ⟨1, by simp [fresh]⟩, fun i u hu => by simp at hu, fun c hc => ?_⟩
    rw [List.eq_of_mem_replicate hc]
    exact fresh_clean .var
  have hd1 : Deno m1 v w := hd.kept k1 (fun _ _ _ => id) (fun b hb => i1.stk_live (upv b hb))
  have hd2 : Deno (m1 ++ [some (fresh 0)]) v w := hd1.kept k2 (fun _ _ _ => id) (fun b hb => i2.stk_live (upv' b hb))
  obtain ⟨m3, cells3, e4, h4, k4⟩ := append_va hva (by simp) hd2 (fun j hj => by
    subst hj
    exfalso
    have := hi.push.stk_live (s := { s with stk := s.stk ++ [.ref m1.length j] }) (upv m1.length (by simp [V.ptr]))
    obtain ⟨o, ho⟩ := this
    have := lt_of_alive ho
    have := k1.1
    simp only at *
    omega)
  have e5 : setIndex (.slot n) 0 v ⟨m1, s.stk ++ [v]⟩ = .ok () ⟨m3, s.stk.set n (.arr m1.length) ++ [v]⟩ := by
    rw [e3]; exact e4
  obtain ⟨m5, e6, i6, k6⟩ := detach_tot (s := ⟨m3, s.stk.set n (.arr m1.length)⟩) h4.inv.pop
  have hle : s.mem.length ≤ m1.length := k1.1
  refine ⟨m1.length, m5, cells3, hle, ?_, ?_, ?_⟩
  · unfold push
    refine withVar_run' (w := v) (mem1 := m3) (stk1 := s.stk.set n (.arr m1.length)) ?_ (by simp) e6
    refine (bind_eq (readSlot (s := { s with stk := s.stk ++ [v] }) (slot_append h))).trans ?_
    have hdn : ∀ t : State α, definedV (.nil : V α) t = .ok false t := fun _ => rfl
    refine (bind_eq (hdn _)).trans ?_
    simp only [Bool.not_false, if_true]
    refine (bind_eq (ht _)).trans ?_
    rw [if_neg (by simp)]
    refine (bind_eq e1).trans ?_
    have hz : ∀ t : State α, sizeV (.nil : V α) t = .ok 0 t := fun _ => rfl
    exact (bind_eq (hz _)).trans e5
  · exact ⟨i6, List.getElem?_set_self hlt, h4.is.kept k6 id (i6.stk_live (mem_stkPtrs (List.getElem?_set_self hlt) (by simp [V.ptr]))), h4.elem, h4.clean⟩
  · refine ⟨?_, fun b o' _ hb ho => ?_⟩
    · have := k2.1; have := k4.1; have := k6.1; simp only at *; omega
    · obtain ⟨o5, f1, f2, f3, f4⟩ := k6.2 b o' id (by have := k2.1; have := k4.1; simp only at *; omega) ho
      obtain ⟨o4, g1, g2, g3, g4⟩ := k4.2 b o5 (by simp only; omega) (by simp; omega) f1
      obtain ⟨o2, q1, q2, q3, q4⟩ := k2.2 b o4 id (by omega) g1
      obtain ⟨o1, r1, r2, r3, r4⟩ := k1.2 b o2 id hb q1
      exact ⟨o1, r1, by rw [f2, g2, q2, r2], by rw [f3, g3, q3, r3], by rw [f4, g4, q4, r4]⟩

theorem kept_all {s : State α} {mem : List (Option (Obj α))} {stk : List (V α)} (h : Kept s.mem mem) : AllSame s ⟨mem, stk⟩ := by
  have hget : ∀ b, b < s.mem.length → ∃ p, mem[b]? = some p := fun b hb => ⟨_, List.getElem?_eq_getElem (by have := h.1; omega)⟩
  refine ⟨fun b o ho => ?_, fun b hb => ?_⟩
  · have hl := (List.getElem?_eq_some_iff.1 ho).1
    obtain ⟨p, hp⟩ := hget b hl
    cases p with
    | none => exact .inl hp
    | some p =>
      obtain ⟨o2, e1, e2, e3, e4⟩ := h.2 b p id hl hp
      rw [ho] at e1
      cases e1
      exact .inr ⟨p, hp, e2, e3, e4⟩
  · have hl := (List.getElem?_eq_some_iff.1 hb).1
    obtain ⟨p, hp⟩ := hget b hl
    cases p with
    | none => exact hp
    | some p =>
      obtain ⟨o2, e1, -⟩ := h.2 b p id hl hp
      rw [hb] at e1
      cases e1

/-- Evaluating the first value. -/
theorem opens_tot [Env α] {s : State α} {own : List Addr} (hi : Inv s own) {t : Item α} (ht : t.Opens s) :
    ∃ mem' v, eval t.exp s = .ok v { s with mem := mem' } ∧ Inv { s with mem := mem' } (v.ptr.toList ++ own) ∧ Kept s.mem mem' ∧ ¬ v.IsRef ∧ (∀ u : State α, typeV v u = .ok none u) ∧
      Yields s { s with mem := mem' } t.exp v := by
  have name : ∀ (m : Nat) (v : V α), s.stk[m]? = some v → ¬ v.IsRef → (∀ u : State α, typeV v u = .ok none u) →
      ∃ mem' v, eval (.name m) s = .ok v { s with mem := mem' } ∧ Inv { s with mem := mem' } (v.ptr.toList ++ own) ∧ Kept s.mem mem' ∧ ¬ v.IsRef ∧ (∀ u : State α, typeV v u = .ok none u) ∧
      Yields s { s with mem := mem' } (.name m) v := by
    intro m v hv hp hty
    obtain ⟨m1, e1, i1, k1, -⟩ := attach_tot (v := v) hi (fun b hb => hi.stk_live (mem_stkPtrs hv hb))
    refine ⟨m1, v, ?_, i1, k1, hp, hty, hv⟩
    refine (bind_eq (readSlot hv)).trans ?_
    unfold copyV
    exact (bind_eq e1).trans rfl
  cases t with
  | nil => exact ⟨s.mem, .nil, rfl, by simpa [V.ptr] using hi, Oth.refl _ _, id, fun _ => rfl, rfl⟩
  | num k x => exact absurd ht id
  | val v => exact absurd ht id
  | str cs =>
    have hf : cs.length + 2 ≤ 2 ^ 30 := ht
    obtain ⟨ob, h1, h2, h3, h4⟩ := newStr_run cs s (by omega)
    have i1 := (eval_keep (lk := false) (Exp.str cs)).inv (own := own) hi h1
    refine ⟨_, _, h1, i1, ⟨by simp, fun b o' _ hb ho => ?_⟩, id, fun _ => rfl, s.mem.length, ob, rfl, le_refl _, by simp, h3, h2.size, h2.elem⟩
    rw [List.getElem?_append_left hb] at ho
    exact ⟨o', ho, rfl, rfl, rfl⟩
  | name m =>
    rcases ht with h | ⟨b, h⟩
    · exact name m _ h id (fun _ => rfl)
    · exact name m _ h id (fun _ => rfl)

/-- The first push onto nil. -/
theorem push_nil_opens [Env α] {s : State α} (hr : Reach s) {n : Nat} (h : s.stk[n]? = some .nil) {t : Item α} (ht : t.Opens s) (hn : t ≠ .name n) :
    ∃ a mem', run (.push n t.exp) s = .ok () ⟨mem', s.stk.set n (.arr a)⟩ ∧ Items ⟨mem', s.stk.set n (.arr a)⟩ n [t] ∧ s.mem.length ≤ a ∧ AllSame s ⟨mem', s.stk.set n (.arr a)⟩ := by
  obtain ⟨own, hi⟩ := reach_inv hr
  obtain ⟨m1, v, e1, i1, k1, hv, hty, y1⟩ := opens_tot hi ht
  obtain ⟨a, m2, cells, hle, e2, hva, k2⟩ := push_nil_va (s := { s with mem := m1 }) h i1 (.self hv) hty
  have hlen := k1.1
  refine ⟨a, m2, (bind_eq e1).trans e2, ⟨[v], hva.vars, rfl, ?_⟩, by simp only at hle; omega, kept_all (k1.trans k2)⟩
  intro i u w hu hw
  match i, hu, hw with
  | 0, hu, hw =>
    cases hu
    cases hw
    cases t with
    | nil => exact y1
    | num k x => exact absurd ht id
    | val v => exact absurd ht id
    | str cs =>
      obtain ⟨b, o, g1, g2, g3, g4, g5, g6⟩ := y1
      subst g1
      have hlive := hva.inv.cell_live hva.is (List.mem_of_getElem? (hva.elem 0 _ rfl)) (b := b) (by simp [Cell.ptrs, V.ptr])
      obtain ⟨rc, g⟩ := Is.kept (k := o.kind) (n := o.size) (cells := o.cells) ⟨o.rc, g3⟩ k2 id hlive
      exact ⟨b, _, rfl, g, g4, g5, g6⟩
    | name m =>
      show (s.stk.set n (.arr a))[m]? = _
      rw [List.getElem?_set_ne (by rintro rfl; exact hn rfl)]
      exact y1

theorem itemOps_push (ts its : List (Item α)) : itemOps (ts.map VOp.push) its = its ++ ts := by
  induction ts generalizing its with
  | nil => simp [itemOps]
  | cons t ts ih => simp [itemOps, VOp.list, ih]

theorem validOps_push {s : State α} (ts its : List (Item α)) (hw : ∀ t ∈ ts, t.Writable s) (hf : Fits (its ++ ts)) : ValidItemOps s (ts.map VOp.push) its := by
  induction ts generalizing its with
  | nil => simpa [ValidItemOps] using hf
  | cons t ts ih =>
    refine ⟨?_, hw t List.mem_cons_self, ih _ (fun u hu => hw u (List.mem_cons_of_mem _ hu)) ?_⟩
    · simp [Fits] at hf ⊢; omega
    · simpa [VOp.list] using hf

/-- C166: pushing values onto nil, the first of which is nil, a string or a variable that is an array or nil, makes the variable a new array of exactly these
    values in order; no other variable and no array changes.  Missing for the full claim: a first value that is a number, for which it is false
    (`push_after_number`). -/
theorem vars_from_nil_partial [Env α] {s : State α} (hr : Reach s) {n : Nat} (h : s.stk[n]? = some .nil) {t : Item α} {ts : List (Item α)} (ht : t.Opens s)
    (hw : ∀ u ∈ ts, u.Writable s) (hn : .name n ∉ t :: ts) (hf : Fits (t :: ts)) :
    ∃ s', Runs (pushes n (t :: ts)) s s' ∧ Items s' n (t :: ts) ∧ (∀ m, m ≠ n → s'.stk[m]? = s.stk[m]?) ∧ AllSame s s' := by
  obtain ⟨a, m1, e1, i1, hle, k1⟩ := push_nil_opens hr h ht (fun e => hn (by rw [e]; exact List.mem_cons_self))
  have hlt := (List.getElem?_eq_some_iff.1 h).1
  have hw' : ∀ u ∈ ts, u.Writable (⟨m1, s.stk.set n (.arr a)⟩ : State α) := by
    intro u hu
    have h1 := hw u hu
    cases u with
    | name m =>
      obtain ⟨v, h2, h3⟩ := h1
      refine ⟨v, ?_, h3⟩
      show (s.stk.set n (.arr a))[m]? = _
      rw [List.getElem?_set_ne (by rintro rfl; exact hn (List.mem_cons_of_mem _ hu))]
      exact h2
    | _ => exact h1
  obtain ⟨s', e2, h2, hs, ho⟩ := var_array_is_list_partial (hr.ok e1) i1 (ts.map VOp.push) (validOps_push ts [t] hw' hf)
  rw [itemOps_push] at h2
  refine ⟨s', ⟨_, e1, ?_⟩, h2, fun m hm => by rw [hs]; exact List.getElem?_set_ne (Ne.symm hm), ?_, fun b hb => ho.2 b (k1.2 b hb)⟩
  · rw [List.map_map] at e2
    exact e2
  · intro b o hb
    rcases k1.1 b o hb with g | ⟨o1, g1, g2, g3, g4⟩
    · exact .inl (ho.2 b g)
    · have hba : (⟨m1, s.stk.set n (.arr a)⟩ : State α).stk[n]? ≠ some (.arr b) := by
        simp only [List.getElem?_set_self hlt]
        intro e
        cases e
        have := (List.getElem?_eq_some_iff.1 hb).1
        omega
      rcases ho.1 b o1 hba g1 with q | ⟨o2, q1, q2, q3, q4⟩
      · exact .inl q
      · exact .inr ⟨o2, q1, q2.trans g2, q3.trans g3, q4.trans g4⟩

attribute [local instance] intEnv

/-- `x = nil; y = 1; y.push(2);` -/
def progBuild : List (Stmt Int) := [.decl .nil, .decl (.num .int 1), .push 1 (.num .int 2)]

-- `x.push("A"); x.push(y); x.push(5); x.push(nil);`
example : Reach (final progBuild) ∧ (final progBuild).stk[0]? = some .nil ∧ (Item.str [65] : Item Int).Opens (final progBuild) ∧
    (∀ u ∈ [Item.name 1, .num .int 5, .nil], u.Writable (final progBuild)) ∧ Item.name 0 ∉ [Item.str [65], .name 1, .num .int 5, .nil] ∧
    Fits [Item.str [(65 : Int)], .name 1, .num .int 5, .nil] := by
  refine ⟨reach_exec progBuild .start (by decide +kernel), by decide +kernel, by simp [Item.Opens, Fits], ?_, by simp, by simp [Fits]⟩
  intro u hu
  simp only [List.mem_cons, List.not_mem_nil, or_false] at hu
  rcases hu with rfl | rfl | rfl
  · exact ⟨.arr 0, by decide +kernel, by intro a i; simp⟩
  · exact ⟨⟨by decide, by decide⟩, by decide⟩
  · trivial

/-- C166, C105: a complex number of doubles pushed onto nil makes an array of vars, whose only element is an array of one number. -/
theorem push_nil_complex [Env α] {s : State α} (hr : Reach s) {n : Nat} (h : s.stk[n]? = some .nil) (z : α) :
    ∃ s' b o, run (.push n (.num .cdouble z)) s = .ok () s' ∧ Vars s' n [.arr b] ∧ s'.mem[b]? = some (some o) ∧ Elements o .cdouble [z] := by
  obtain ⟨own, hi⟩ := reach_inv hr
  obtain ⟨ob, h1, h2, -⟩ := newNum_box z s
  have i1 := (eval_keep (lk := false) (Exp.num .cdouble z)).inv (own := own) hi h1
  obtain ⟨a, m2, cells, hle, e2, hva, k2⟩ := push_nil_va (s := { s with mem := s.mem ++ [some ob] }) (w := .arr s.mem.length) h i1 (.self id) (fun _ => rfl)
  have hlive := hva.inv.cell_live hva.is (List.mem_of_getElem? (hva.elem 0 _ rfl)) (b := s.mem.length) (by simp [Cell.ptrs, V.ptr])
  obtain ⟨rc, g⟩ := Is.kept (k := ob.kind) (n := ob.size) (cells := ob.cells) ⟨ob.rc, by simp⟩ k2 id hlive
  refine ⟨_, s.mem.length, _, (bind_eq h1).trans e2, hva.vars, g, h2.kind, h2.size, fun i x hx => ?_⟩
  match i, hx with
  | 0, hx => cases hx; exact h2.cell

/-- C166 is false if the first value is a number: anything of another type pushed after it is refused, and nothing has changed. -/
theorem push_after_number [Env α] {s : State α} (hr : Reach s) {n : Nat} {k : Kind} {x : α} (h : s.stk[n]? = some (.num k x)) {t : Item α} (ht : t.Opens s) :
    ∃ s', run (.push n t.exp) s = .thrown (.error "push(): Incompatible types") s' ∧ s'.stk = s.stk ∧ AllSame s s' := by
  obtain ⟨own, hi⟩ := reach_inv hr
  obtain ⟨m1, v, e1, i1, k1, hv, hty, y1⟩ := opens_tot hi ht
  obtain ⟨m2, e2, i2, k2⟩ := detach_tot (s := { s with mem := m1 }) i1
  refine ⟨⟨m2, s.stk⟩, (bind_eq e1).trans ?_, rfl, kept_all (k1.trans k2)⟩
  unfold push
  refine withVar_thr (s := { s with mem := m1 }) (w := v) (mem1 := m1) ?_ rfl e2
  refine (bind_eq (readSlot (s := ⟨m1, s.stk ++ [v]⟩) (slot_append h))).trans ?_
  have hdn : ∀ t : State α, definedV (.num k x : V α) t = .ok true t := fun _ => rfl
  refine (bind_eq (hdn _)).trans ?_
  simp only [Bool.not_true, Bool.false_eq_true, if_false]
  refine (bind_eq (typeV_num k x _)).trans ((bind_eq (hty _)).trans ((bind_eq (typeV_num k x _)).trans ?_))
  rw [if_pos ⟨by simp, by simp⟩]
  rfl

example : Reach (final [.decl (.num .int 1)]) ∧ (final [.decl (.num .int 1)]).stk[0]? = some (.num .int (1 : Int)) ∧ (Item.str [65] : Item Int).Opens (final [.decl (.num .int 1)]) :=
  ⟨reach_exec [.decl (.num .int 1)] .start (by decide +kernel), by decide +kernel, by simp [Item.Opens, Fits]⟩

/-- The full claim: whatever is pushed onto nil, the variable is the array of it. -/
def BuildsAll : Prop := ∀ (s : State Int) (n : Nat) (ts : List (Item Int)), Reach s → s.stk[n]? = some .nil → (∀ t ∈ ts, t.Writable s) → .name n ∉ ts → Fits ts → ts ≠ [] →
  ∃ s', Runs (pushes n ts) s s' ∧ Items s' n ts

/-- C166 is false: `x.push(1); x.push("A")` is refused. -/
theorem mixed_not_built : ¬ BuildsAll := by
  intro hall
  obtain ⟨s', ⟨s1, e1, s2, e2, -⟩, -⟩ := hall (final [.decl .nil]) 0 [.num .int 1, .str [65]] (reach_exec [.decl .nil] .start (by decide +kernel)) (by decide +kernel)
    (by
      intro t ht
      simp only [List.mem_cons, List.not_mem_nil, or_false] at ht
      rcases ht with rfl | rfl
      · exact ⟨⟨by decide, by decide⟩, by decide⟩
      · simp [Item.Writable, Fits])
    (by simp) (by simp [Fits]) (by simp)
  have hr1 : Reach s1 := (reach_exec [.decl .nil] .start (by decide +kernel)).ok e1
  have hs1 : s1.stk[0]? = some (.num .int 1) := by
    have h := push_nil_number (s := final [.decl .nil]) (n := 0) (j := .int) (by decide +kernel) ⟨⟨by decide, by decide⟩, by decide⟩ (1 : Int)
    have e1 : run (.push 0 (.num .int 1)) (final [.decl .nil]) = .ok () s1 := e1
    rw [h] at e1
    cases e1
    decide +kernel
  obtain ⟨s3, e3, -⟩ := push_after_number (t := .str [65]) hr1 hs1 (by simp [Item.Opens, Fits])
  rw [e2] at e3
  cases e3

#print axioms vars_from_nil_partial
#print axioms push_nil_complex
#print axioms push_after_number
#print axioms mixed_not_built

end Libube.MemProps

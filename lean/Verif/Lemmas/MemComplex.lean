import Verif.Lemmas.MemArray
import Verif.Spec.MemComplex

/-! # Numbers of type cdouble: arrays of one -/

namespace Libube.Mem

open MemSpec

variable {α : Type}

/-- An array of one `cdouble`. -/
structure Box (o : Obj α) (x : α) : Prop where
  kind : o.kind = .cdouble
  size : o.size = 1
  cell : o.cells[0]? = some (.raw (some x))
  ptrs : o.ptrs = []

theorem Box.rc {o : Obj α} {x : α} (h : Box o x) (r : Nat) : Box { o with rc := r } x := ⟨h.kind, h.size, h.cell, h.ptrs⟩

theorem boxed_run [Env α] (x : α) (s : State α) :
    ∃ ob : Obj α, boxed .cdouble x s = .ok (.arr s.mem.length) { mem := s.mem ++ [some ob], stk := s.stk } ∧ Box ob x ∧ ob.rc = 1 := by
  obtain ⟨cells, h1, h2, h3, -, -⟩ := resizeObj_run (o := (⟨.cdouble, 0, 1, []⟩ : Obj α)) (m := 1)
    ⟨by simp, by simp⟩ (by intro c hc; exact absurd hc List.not_mem_nil) (by norm_num)
  have hh : Has False (⟨.cdouble, 1, 1, cells⟩ : Obj α) 1 [] :=
    ⟨⟨by simp, by simp⟩, rfl, by simp, by simp, h3, h2, fun h => h.elim⟩
  obtain ⟨y, hy⟩ := hh.place (i := 0) (by omega)
  have hs := hh.snoc (by simp) x
  refine ⟨⟨.cdouble, 1, 1, cells.set 0 (.raw (some x))⟩, ?_, ⟨rfl, rfl, hs.elem 0 x rfl, hs.ptrs⟩, rfl⟩
  unfold boxed
  rw [if_pos rfl]
  have hn : newHeap 1 (some .cdouble) s = .ok s.mem.length { mem := s.mem ++ [some ⟨.cdouble, 1, 1, cells⟩], stk := s.stk } := by
    unfold newHeap
    simp only [Option.getD_some, h1]
    rfl
  have hr := setRaw_run (s := { mem := s.mem ++ [some ⟨.cdouble, 1, 1, cells⟩], stk := s.stk }) (a := s.mem.length)
    (o := ⟨.cdouble, 1, 1, cells⟩) (by simp) hy x
  refine (bind_eq hn).trans ((bind_eq hr).trans ?_)
  simp [upd]
  rfl

theorem newNum_box [Env α] (x : α) (s : State α) :
    ∃ ob : Obj α, eval (.num .cdouble x) s = .ok (.arr s.mem.length) { mem := s.mem ++ [some ob], stk := s.stk } ∧ Box ob x ∧ ob.rc = 1 := by
  obtain ⟨ob, h1, h2⟩ := boxed_run x s
  refine ⟨ob, ?_, h2⟩
  show newNum .cdouble x s = _
  unfold newNum
  rw [if_neg (by decide)]
  exact h1

theorem castV_box [Env α] {b : Addr} {s : State α} {ob : Obj α} {x : α} (h : s.mem[b]? = some (some ob)) (hb : Box ob x) :
    castV .cdouble (.arr b) s = .ok x s := by
  unfold castV
  rw [bind_eq (derefV_arr b s)]
  simp only [bind_eq (obj_eq h), hb.kind]
  exact rawAt_run h hb.cell

theorem getV_box {b : Addr} {s : State α} {ob : Obj α} {x : α} (h : s.mem[b]? = some (some ob)) (hb : Box ob x) :
    getV .cdouble (.arr b) s = .ok x s := by
  unfold getV
  rw [bind_eq (derefV_arr b s)]
  simp only [bind_eq (obj_eq h), hb.kind, and_self, if_true]
  exact rawAt_run h hb.cell

/-- One count more and then one less. -/
theorem detach_back {b : Addr} {s : State α} {ob : Obj α} (h : s.mem[b]? = some (some ob)) (hr : 1 ≤ ob.rc) :
    detachV (.arr b) (upd s b { ob with rc := ob.rc + 1 }) = .ok () s := by
  rw [detach_upd (v := V.arr b) rfl h (by simp; omega)]
  simp only [Nat.add_sub_cancel]
  rw [upd_self h]

theorem refAssign_box [Env α] {a b : Addr} {i : Nat} {s : State α} {o ob : Obj α} {y : Option α} {x : α}
    (hab : a ≠ b) (h : s.mem[a]? = some (some o)) (hk : o.kind = .cdouble) (hy : o.cells[i]? = some (.raw y))
    (hb : s.mem[b]? = some (some ob)) (hx : Box ob x) (hr : 2 ≤ o.rc) (hrb : 1 ≤ ob.rc) :
    withVar (.ref a i) (fun lr => attachV (.arr b) >>= fun _ => assign lr (.arr b)) s =
      .ok () (upd s a { o with rc := o.rc - 1, cells := o.cells.set i (.raw (some x)) }) := by
  refine withVar_run (w := .ref a i) (s1 := { upd s a { o with cells := o.cells.set i (.raw (some x)) } with stk := s.stk ++ [.ref a i] }) ?_ rfl ?_
  · have h0 : ({ mem := s.mem, stk := s.stk ++ [.ref a i] } : State α).mem[a]? = some (some o) := h
    have hb0 : ({ mem := s.mem, stk := s.stk ++ [.ref a i] } : State α).mem[b]? = some (some ob) := hb
    rw [bind_eq (attach_run (v := V.arr b) rfl hb0)]
    refine assign_ref (a := a) (i := i) (o := o) (x := x) (y := y)
      ?_ ((upd_other (Ne.symm hab) _).trans h0) (by rw [hk]; exact ⟨by simp, by simp⟩)
      (by rw [hk]; exact castV_box (ob := { ob with rc := ob.rc + 1 }) (upd_get hb0 _) (hx.rc _)) hy ?_
    · simp [upd]
    · rw [upd_comm (Ne.symm hab)]
      exact detach_back (s := upd { mem := s.mem, stk := s.stk ++ [.ref a i] } a _) ((upd_other hab _).trans hb0) hrb
  · exact detach_upd (v := V.ref a i) (s := s) rfl h hr

/-- `x[i] = v`. -/
theorem setIndex_box [Env α] {P : Prop} {k : Nat} {a b : Addr} {n i : Nat} {s : State α} {o ob : Obj α} {xs : List α} {x : α}
    (hab : a ≠ b) (hk : s.stk[k]? = some (.arr a)) (h : s.mem[a]? = some (some o)) (hc : o.kind = .cdouble) (hh : Has P o n xs)
    (hb : s.mem[b]? = some (some ob)) (hx : Box ob x) (hi : i + 2 ≤ 2 ^ 30) (hr : 1 ≤ o.rc) (hrb : 1 ≤ ob.rc) :
    ∃ o' : Obj α, setIndex (.slot k) i (.arr b) s =
        .ok () { mem := (upd s a { o' with cells := o'.cells.set i (.raw (some x)) }).mem.set b (dec ob), stk := s.stk } ∧
      Has P o' (max n (i + 1)) xs ∧ o'.kind = o.kind ∧ o'.rc = o.rc := by
  have h0 : ({ mem := s.mem, stk := s.stk ++ [.arr b] } : State α).mem[a]? = some (some o) := h
  obtain ⟨o', h1, h2, h3, h4⟩ := index_run (s := { mem := s.mem, stk := s.stk ++ [.arr b] }) (i := i)
    (slot_append hk) h0 hh hi
  refine ⟨{ o' with rc := o.rc }, ?_, h2.rc _, h3, rfl⟩
  obtain ⟨y, hy⟩ := h2.place (i := i) (by omega)
  refine withVar_run (w := .arr b) (s1 := { upd s a { o' with rc := o.rc, cells := o'.cells.set i (.raw (some x)) } with stk := s.stk ++ [.arr b] }) ?_ rfl
    (detach_dec (v := V.arr b) (s := upd s a _) rfl ((upd_other hab _).trans hb) hrb hx.ptrs)
  rw [bind_eq h1]
  refine (refAssign_box (o := o') hab (upd_get h0 _) (h3.trans hc) hy ((upd_other hab _).trans hb) hx (by omega) hrb).trans ?_
  rw [upd_upd, h4]
  rfl

theorem push_box [Env α] {P : Prop} {k : Nat} {a b : Addr} {n : Nat} {s : State α} {o ob : Obj α} {xs : List α} {x : α}
    (hab : a ≠ b) (hk : s.stk[k]? = some (.arr a)) (h : s.mem[a]? = some (some o)) (hc : o.kind = .cdouble) (hh : Has P o n xs)
    (hx : xs.length = n) (hb : s.mem[b]? = some (some ob)) (hbx : Box ob x) (hn : n + 2 ≤ 2 ^ 30) (hr : 1 ≤ o.rc) (hrb : 1 ≤ ob.rc) :
    ∃ o' : Obj α, push (.slot k) (.arr b) s = .ok () { mem := (upd s a o').mem.set b (dec ob), stk := s.stk } ∧
      Has P o' (n + 1) (xs ++ [x]) ∧ o'.kind = o.kind ∧ o'.rc = o.rc := by
  let s1 : State α := { mem := s.mem, stk := s.stk ++ [.arr b] }
  let s2 : State α := upd s1 b { ob with rc := ob.rc + 1 }
  have h0 : s1.mem[a]? = some (some o) := h
  have hb0 : s1.mem[b]? = some (some ob) := hb
  have hk0 : s1.stk[k]? = some (.arr a) := slot_append hk
  have h2a : s2.mem[a]? = some (some o) := (upd_other (s := s1) (Ne.symm hab) _).trans h0
  obtain ⟨o', h1, h2, h3, h4⟩ := setIndex_box (i := n) (s := s2) (ob := { ob with rc := ob.rc + 1 }) hab hk0 h2a hc hh
    (upd_get hb0 _) (hbx.rc _) hn hr (by simp)
  have h5 := h2.snoc (by omega) x
  refine ⟨{ o' with cells := o'.cells.set n (.raw (some x)) }, ?_, ?_, h3, h4⟩
  · have hdec : dec { ob with rc := ob.rc + 1 } = some ob := by
      unfold dec
      rw [if_neg (by simp; omega)]
      rfl
    have hfin : ({ mem := (upd s2 a { o' with cells := o'.cells.set n (.raw (some x)) }).mem.set b (dec { ob with rc := ob.rc + 1 }), stk := s2.stk } : State α) =
        upd s1 a { o' with cells := o'.cells.set n (.raw (some x)) } := by
      rw [hdec]
      show upd (upd (upd s1 b _) a _) b ob = _
      rw [upd_comm hab.symm, upd_upd]
      exact upd_self ((upd_other hab _).trans hb0)
    rw [hfin] at h1
    refine withVar_run (w := .arr b) (s1 := upd s1 a { o' with cells := o'.cells.set n (.raw (some x)) }) ?_ rfl
      (detach_dec (v := V.arr b) (s := upd s a _) rfl ((upd_other hab _).trans hb) hrb hbx.ptrs)
    rw [bind_eq (readSlot hk0)]
    simp only [bind_eq (definedV_arr a _), Bool.not_true, Bool.false_eq_true, if_false]
    simp only [bind_eq (typeV_arr a _), bind_eq (typeV_arr b _), ne_eq, not_true_eq_false, false_and, if_false]
    rw [bind_eq (attach_run (v := V.arr b) rfl hb0), bind_eq (sizeV_arr h2a), hh.size]
    exact h1
  · rw [hx] at h5
    rwa [show max n (n + 1) = n + 1 by omega] at h5

theorem unshift_box [Env α] {P : Prop} {k : Nat} {a b : Addr} {n : Nat} {s : State α} {o ob : Obj α} {xs : List α} {x : α}
    (hab : a ≠ b) (hk : s.stk[k]? = some (.arr a)) (h : s.mem[a]? = some (some o)) (hc : o.kind = .cdouble) (hh : Has P o n xs)
    (hb : s.mem[b]? = some (some ob)) (hbx : Box ob x) (hn : n + 2 ≤ 2 ^ 30) (hrb : 1 ≤ ob.rc) :
    ∃ o' : Obj α, unshift (.slot k) (.arr b) s = .ok () { mem := (upd s a o').mem.set b (dec ob), stk := s.stk } ∧
      Has P o' (n + 1) (x :: xs) ∧ o'.kind = o.kind ∧ o'.rc = o.rc := by
  let s1 : State α := { mem := s.mem, stk := s.stk ++ [.arr b] }
  have h0 : s1.mem[a]? = some (some o) := h
  have hb0 : s1.mem[b]? = some (some ob) := hb
  have hk0 : s1.stk[k]? = some (.arr a) := slot_append hk
  let s2 : State α := { mem := (upd s1 b { ob with rc := ob.rc + 1 }).mem, stk := s1.stk ++ [.arr b] }
  have h02 : s2.mem[a]? = some (some o) := (upd_other (s := s1) (Ne.symm hab) _).trans h0
  have hb2 : s2.mem[b]? = some (some { ob with rc := ob.rc + 1 }) := upd_get (s := s1) hb0 _
  obtain ⟨o', h1, h2, h3, h4, -⟩ := heapResize_run (m := n + 1) h02 hh (by omega)
  replace h2 := h2.any (Q := P) (fun _ => trivial)
  have hcap := h2.cap
  have hsz := h2.size
  have hle := hh.le
  obtain ⟨c, cs, hcs⟩ : ∃ c cs, o'.cells = c :: cs := by
    cases hc : o'.cells with
    | nil => rw [hc] at hcap; simp at hcap
    | cons c cs => exact ⟨c, cs, rfl⟩
  obtain ⟨y, hy⟩ := h2.raw c (by rw [hcs]; exact List.mem_cons_self ..)
  have hu0 : (unshifted c o')[0]? = some (.raw y) := by simp [unshifted, hy]
  have hlen : (unshifted c o').length = o'.cells.length := by
    unfold unshifted
    simp [hsz]
    omega
  have hlow : ∀ i, i < n → (unshifted c o')[i + 1]? = o'.cells[i]? := by
    intro i hi
    unfold unshifted
    rw [List.getElem?_cons_succ, List.getElem?_append_left (by simp [hsz]; omega), List.getElem?_take,
      if_pos (by omega)]
  have hraw : ∀ c' ∈ unshifted c o', ∃ y, c' = Cell.raw y := by
    intro c' hc'
    rcases List.mem_cons.1 hc' with h' | h'
    · exact ⟨y, h'.trans hy⟩
    · rcases List.mem_append.1 h' with h' | h'
      · exact h2.raw c' (List.mem_of_mem_take h')
      · exact h2.raw c' (List.mem_of_mem_drop h')
  refine ⟨{ o' with cells := (unshifted c o').set 0 (.raw (some x)) }, ?_, ⟨h2.num, h2.size, by simp; omega, ?_, by simp; omega,
    raw_of_set hraw _ _, fun hP hc' => ?_⟩, h3, h4⟩
  · refine withVar_run (w := .arr b) (s1 := upd s1 a { o' with cells := (unshifted c o').set 0 (.raw (some x)) }) ?_ rfl
      (detach_dec (v := V.arr b) (s := upd s a _) rfl ((upd_other hab _).trans hb) hrb hbx.ptrs)
    show _ = R.ok () (upd s1 a { o' with cells := (unshifted c o').set 0 (.raw (some x)) })
    rw [bind_eq (readSlot hk0)]
    simp only [bind_eq (definedV_arr a _), Bool.not_true, Bool.false_eq_true, if_false]
    simp only [bind_eq (heapOf_arr a _), bind_eq (pure_run () _)]
    rw [bind_eq (readSlot hk0)]
    simp only [bind_eq (heapOf_arr a _)]
    rw [bind_eq (attach_run (v := V.arr b) rfl hb0)]
    unfold heapUnshift
    have hd := detach_back (s := upd s1 a { o' with cells := (unshifted c o').set 0 (.raw (some x)) }) ((upd_other hab _).trans hb0) hrb
    rw [upd_comm hab] at hd
    refine withVar_run (w := .arr b) (s1 := upd s2 a { o' with cells := (unshifted c o').set 0 (.raw (some x)) })
      ?_ rfl hd
    show (obj a >>= _) s2 = R.ok () (upd s2 a _)
    rw [bind_eq (obj_eq h02), hh.size, bind_eq h1, bind_eq (obj_eq (upd_get h02 o'))]
    rw [if_neg h2.num.1, if_neg h2.num.2]
    unfold unshiftNums
    rw [if_neg (by omega), hcs]
    simp only
    have hs : (setObj a { o' with cells := unshifted c o' } : M α Unit) (upd s2 a o') =
      .ok () (upd s2 a { o' with cells := unshifted c o' }) := by simp [setObj, upd, List.set_set]
    rw [bind_eq hs]
    have hg : getV o'.kind (.arr b) (upd s2 a { o' with cells := unshifted c o' }) =
        .ok x (upd s2 a { o' with cells := unshifted c o' }) := by
      rw [h3, hc]
      exact getV_box ((upd_other hab _).trans hb2) (hbx.rc _)
    rw [bind_eq hg]
    rw [setRaw_run (o := { o' with cells := unshifted c o' }) (upd_get h02 _) hu0, upd_upd]
  · intro i z hz
    cases i with
    | zero =>
      cases hz
      exact List.getElem?_set_self (by omega)
    | succ i =>
      simp only [List.getElem?_cons_succ] at hz
      have hi : i < xs.length := (List.getElem?_eq_some_iff.1 hz).1
      simp only
      rw [List.getElem?_set_ne (by omega), hlow i (by omega)]
      exact h2.elem i z (by rw [List.getElem?_take, if_pos (by omega)]; exact hz)
  · exact absurd (hc'.symm.trans (h3.trans hc)) (by decide)

/-- The number taken by an operation is gone afterwards. -/
theorem box_gone {a : Addr} {s : State α} {o' ob : Obj α} (hal : a < s.mem.length) (hr : ob.rc = 1) :
    ({ mem := (upd { mem := s.mem ++ [some ob], stk := s.stk } a o').mem.set s.mem.length (dec ob), stk := s.stk } : State α) =
      { mem := (upd s a o').mem ++ [none], stk := s.stk } := by
  rw [upd_append hal]
  simp [upd, dec, hr]

theorem good_append [Env α] {P : Prop} {s : State α} {n : Nat} {a : Addr} {k : Kind} {ys : List α} {o o' : Obj α}
    (hs : s.stk[n]? = some (.arr a)) (h : s.mem[a]? = some (some o)) (hh : Has P o' ys.length ys)
    (hk : o'.kind = k) (hr : 1 ≤ o'.rc) : Good P { mem := (upd s a o').mem ++ [none], stk := s.stk } n a k ys := by
  refine ⟨⟨o', ?_, hh, hk, hr⟩, hs⟩
  show ((upd s a o').mem ++ [none])[a]? = _
  rw [List.getElem?_append_left (by simpa [upd] using lt_of_alive h)]
  exact upd_get h o'

theorem cstep_ok [Env α] {P : Prop} {s : State α} {n : Nat} {a : Addr} {xs : List α}
    (hg : Good P s n a .cdouble xs) (op : COp α) (hv : op.Valid xs) (hn : xs.length + 2 ≤ 2 ^ 30)
    (hn' : (op.list xs).length + 2 ≤ 2 ^ 30) :
    ∃ s', run (op.stmt n) s = .ok () s' ∧ Good P s' n a .cdouble (op.list xs) ∧ Only s s' a := by
  have hg0 := hg
  obtain ⟨⟨o, h, hh, hko, hr⟩, hs⟩ := hg
  have hal := lt_of_alive h
  have hab : a ≠ s.mem.length := Nat.ne_of_lt hal
  have hget : ∀ ob : Obj α, ({ mem := s.mem ++ [some ob], stk := s.stk } : State α).mem[a]? = some (some o) := fun ob =>
    (List.getElem?_append_left hal).trans h
  have hgetb : ∀ ob : Obj α, ({ mem := s.mem ++ [some ob], stk := s.stk } : State α).mem[s.mem.length]? = some (some ob) := fun ob => by simp
  cases op with
  | push x =>
    obtain ⟨ob, h1, h2, h3⟩ := newNum_box x s
    obtain ⟨o', h4, h5, h6, h7⟩ := push_box (s := { mem := s.mem ++ [some ob], stk := s.stk }) hab hs (hget ob) hko hh rfl (hgetb ob) h2 hn hr (by omega)
    refine ⟨_, (bind_eq h1).trans (h4.trans (congrArg _ (box_gone hal h3))), good_append hs h ?_ (h6.trans hko) (by omega), only_append _⟩
    simpa [COp.list] using h5
  | pop => exact run_pop hg0 hv (by omega)
  | shift =>
    obtain ⟨y, ys, rfl⟩ := List.exists_cons_of_ne_nil hv
    obtain ⟨o', h1, h2, h3, h4⟩ := shift_boxed hs h hh (by simp at hn; omega)
    rw [hko] at h1
    obtain ⟨ob, h5, h6, h7⟩ := boxed_run y (upd s a o')
    refine ⟨_, ?_, good_append hs h h2 (h3.trans hko) (by omega), only_append _⟩
    show (shift (.slot n) >>= fun v => detachV v) s = _
    exact (bind_eq (h1.trans h5)).trans (detach_last h7 h6.ptrs)
  | unshift x =>
    obtain ⟨ob, h1, h2, h3⟩ := newNum_box x s
    obtain ⟨o', h4, h5, h6, h7⟩ := unshift_box (s := { mem := s.mem ++ [some ob], stk := s.stk }) hab hs (hget ob) hko hh (hgetb ob) h2 hn (by omega)
    refine ⟨_, (bind_eq h1).trans (h4.trans (congrArg _ (box_gone hal h3))), good_append hs h ?_ (h6.trans hko) (by omega), only_append _⟩
    simpa [COp.list] using h5
  | set i x =>
    have hi : i < xs.length := hv
    obtain ⟨ob, h1, h2, h3⟩ := newNum_box x s
    obtain ⟨o', h4, h5, h6, h7⟩ := setIndex_box (i := i) (s := { mem := s.mem ++ [some ob], stk := s.stk }) hab hs (hget ob) hko hh (hgetb ob) h2 (by omega) hr (by omega)
    rw [show max xs.length (i + 1) = xs.length by omega] at h5
    refine ⟨_, (bind_eq h1).trans (h4.trans (congrArg _ (box_gone hal h3))),
      good_append hs h (o' := { o' with cells := o'.cells.set i (.raw (some x)) }) ?_ (h6.trans hko) (by simp; omega), only_append _⟩
    simpa [COp.list] using h5.set hi x
  | truncate m =>
    have hm : m ≤ xs.length := hv
    obtain ⟨o', h1, h2, h3, h4, -⟩ := resize_run (m := m) hs h hh (by omega)
    replace h2 := h2.any (Q := P) (fun _ => trivial)
    refine ⟨_, h1, good_upd hs h ?_ (h3.trans hko) (by rw [h4]; exact hr), only_upd _ _ _⟩
    have hl : (COp.list (.truncate m : COp α) xs).length = m := by simp [COp.list]; omega
    rw [hl]
    exact h2
  | presize m =>
    obtain ⟨-, o', h1, h2, h3, h4, -⟩ := presize_run (m := m) hs h hh rfl (by omega) (by have := hv.2; omega)
    have hp : presized o.kind m xs = xs := by
      unfold presized
      rw [List.set_eq_of_length_le hv.1, ite_self]
    rw [hp] at h2
    exact ⟨_, h1, good_upd hs h (h2.any (Q := P) (fun _ => trivial)) (h3.trans hko) (by rw [h4]; exact hr), only_upd _ _ _⟩
  | append ys =>
    simp only [COp.list, List.length_append] at hn'
    obtain ⟨o', h1, h2, h3, h4⟩ := append_run ys hs h hh rfl (by omega)
    rw [hko] at h1
    refine ⟨_, h1, good_upd hs h ?_ (h3.trans hko) (by rw [h4]; exact hr), only_upd _ _ _⟩
    rw [show (COp.list (.append ys) xs).length = xs.length + ys.length by simp [COp.list]]
    exact h2.any (Q := P) (fun _ => trivial)

theorem csteps_ok [Env α] {P : Prop} {n : Nat} {a : Addr} (ops : List (COp α)) : ∀ (s : State α) (xs : List α),
    Good P s n a .cdouble xs → CValidOps ops xs →
    ∃ s', Runs (ops.map (COp.stmt n)) s s' ∧ Good P s' n a .cdouble (clistOps ops xs) ∧ Only s s' a := by
  induction ops with
  | nil => intro s xs hg _; exact ⟨s, rfl, hg, .refl _ _⟩
  | cons op ops ih =>
    intro s xs hg hv
    have hf : Fits (op.list xs) := by
      have := hv.2.2
      revert this
      cases ops with
      | nil => exact fun h => h
      | cons p ps => exact fun h => h.1
    obtain ⟨s1, h1, h2, h3⟩ := cstep_ok hg op hv.2.1 hv.1 hf
    obtain ⟨s2, h4, h5, h6⟩ := ih s1 _ h2 hv.2.2
    exact ⟨s2, ⟨s1, h1, h4⟩, h5, h3.trans h6⟩

end Libube.Mem

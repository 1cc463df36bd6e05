import Verif.Lemmas.MemKeep
import Verif.Lemmas.AllocSize

/-! # What calls compute for arrays of numbers -/

namespace Libube.Mem

variable {α β γ : Type} {P : Prop}

/-- Replacing an array. -/
def upd (s : State α) (a : Addr) (o : Obj α) : State α := { s with mem := s.mem.set a (some o) }

theorem lt_of_alive {mem : List (Option (Obj α))} {a : Addr} {x : Option (Obj α)} (h : mem[a]? = some x) :
    a < mem.length := (List.getElem?_eq_some_iff.1 h).1

theorem upd_get {s : State α} {a : Addr} {x : Option (Obj α)} (h : s.mem[a]? = some x) (o : Obj α) :
    (upd s a o).mem[a]? = some (some o) := List.getElem?_set_self (lt_of_alive h)

theorem upd_other {s : State α} {a b : Addr} (h : a ≠ b) (o : Obj α) :
    (upd s a o).mem[b]? = s.mem[b]? := List.getElem?_set_ne h

theorem upd_upd (s : State α) (a : Addr) (o o' : Obj α) : upd (upd s a o) a o' = upd s a o' := by
  simp [upd, List.set_set]

theorem upd_self {s : State α} {a : Addr} {o : Obj α} (h : s.mem[a]? = some (some o)) : upd s a o = s := by
  have : s.mem.set a (some o) = s.mem := by
    apply List.ext_getElem?
    intro b
    by_cases hb : a = b
    · subst hb; rw [List.getElem?_set_self (lt_of_alive h), h]
    · rw [List.getElem?_set_ne hb]
  unfold upd
  rw [this]

theorem attach_run {v : V α} {a : Addr} {s : State α} {o : Obj α} (hp : v.ptr = some a)
    (h : s.mem[a]? = some (some o)) : attachV v s = .ok () (upd s a { o with rc := o.rc + 1 }) := by
  unfold attachV
  rw [hp]
  simp only [bind_eq (obj_eq h)]
  rfl

theorem attach_none {v : V α} (hp : v.ptr = none) (s : State α) : attachV v s = .ok () s := by
  unfold attachV
  rw [hp]
  rfl

theorem detach_run {v : V α} {a : Addr} {s : State α} {o : Obj α} (hp : v.ptr = some a)
    (h : s.mem[a]? = some (some o)) (hr : 2 ≤ o.rc) :
    detachV v s = .ok () (upd s a { o with rc := o.rc - 1 }) := by
  unfold detachV
  have h0 : ¬ o.rc = 0 := by omega
  have h1 : ¬ o.rc = 1 := by omega
  simp [bind_run, M.bind, getMem, hp, release, h, h0, h1, liftO, setMem, upd]

theorem detach_upd {v : V α} {a : Addr} {s : State α} {o : Obj α} {x : Option (Obj α)} (hp : v.ptr = some a)
    (h : s.mem[a]? = some x) (hr : 2 ≤ o.rc) :
    detachV v (upd s a o) = .ok () (upd s a { o with rc := o.rc - 1 }) := by
  rw [detach_run hp (upd_get h o) hr, upd_upd]

theorem detach_none {v : V α} (hp : v.ptr = none) (s : State α) : detachV v s = .ok () s := by
  unfold detachV
  simp [bind_run, M.bind, getMem, hp, release, liftO, setMem]

theorem copyV_run {v : V α} {a : Addr} {s : State α} {o : Obj α} (hp : v.ptr = some a)
    (h : s.mem[a]? = some (some o)) : copyV v s = .ok v (upd s a { o with rc := o.rc + 1 }) := by
  unfold copyV
  rw [bind_eq (attach_run hp h)]
  rfl

theorem withVar_run {v w : V α} {f : Loc → M α β} {s s1 s2 : State α} {b : β} {mem1 : List (Option (Obj α))}
    (hf : f (.slot s.stk.length) { s with stk := s.stk ++ [v] } = .ok b s1)
    (hs1 : s1 = { mem := mem1, stk := s.stk ++ [w] })
    (hd : detachV w { mem := mem1, stk := s.stk } = .ok () s2) : withVar v f s = .ok b s2 := by
  subst hs1
  unfold withVar
  simp only [hf]
  simp [hd]

theorem readSlot {s : State α} {n : Nat} {v : V α} (h : s.stk[n]? = some v) :
    readLoc (.slot n) s = .ok v s := by
  simp [readLoc, h]

theorem readTemp (mem : List (Option (Obj α))) (stk : List (V α)) (v : V α) :
    readLoc (.slot stk.length) { mem := mem, stk := stk ++ [v] } = .ok v { mem := mem, stk := stk ++ [v] } := by
  simp [readLoc]

theorem slot_append {stk : List (V α)} {n : Nat} {v w : V α} (h : stk[n]? = some v) :
    (stk ++ [w])[n]? = some v := by
  rw [List.getElem?_append_left (List.getElem?_eq_some_iff.1 h).1, h]

theorem derefV_arr (a : Addr) (s : State α) : derefV (.arr a) s = .ok (.arr a) s := rfl
theorem derefV_num (k : Kind) (x : α) (s : State α) : derefV (.num k x) s = .ok (.num k x) s := rfl
theorem heapOf_arr (a : Addr) (s : State α) : heapOf (.arr a) s = .ok (some a) s := rfl
theorem typeV_arr (a : Addr) (s : State α) : typeV (.arr a) s = .ok none s := rfl
theorem typeV_num (k : Kind) (x : α) (s : State α) : typeV (.num k x) s = .ok (some k) s := rfl
theorem definedV_arr (a : Addr) (s : State α) : definedV (.arr a) s = .ok true s := rfl
theorem sizeV_num (k : Kind) (x : α) (s : State α) : sizeV (.num k x) s = .ok 1 s := rfl

theorem sizeV_arr {a : Addr} {s : State α} {o : Obj α} (h : s.mem[a]? = some (some o)) :
    sizeV (.arr a) s = .ok o.size s := by
  unfold sizeV
  rw [bind_eq (derefV_arr a s)]
  simp only [bind_eq (obj_eq h)]
  rfl

/-- The kinds of numbers. -/
def IsNum (k : Kind) : Prop := k ≠ .var ∧ k ≠ .pair

theorem derefLoc_num {a : Addr} {i : Nat} {s : State α} {o : Obj α} (h : s.mem[a]? = some (some o))
    (hk : IsNum o.kind) : derefLoc a i s = .ok none s := by
  unfold derefLoc
  rw [bind_eq (obj_eq h)]
  revert hk
  cases o.kind <;> simp [IsNum] <;> rfl

theorem derefV_ref_num {a : Addr} {i : Nat} {s : State α} {o : Obj α} (h : s.mem[a]? = some (some o))
    (hk : IsNum o.kind) : derefV (.ref a i) s = .ok (.ref a i) s := by
  unfold derefV
  simp only [bind_eq (derefLoc_num h hk)]
  rfl

theorem typeV_ref_num {a : Addr} {i : Nat} {s : State α} {o : Obj α} (h : s.mem[a]? = some (some o))
    (hk : IsNum o.kind) : typeV (.ref a i) s = .ok (some o.kind) s := by
  unfold typeV
  rw [bind_eq (derefV_ref_num h hk)]
  simp only [bind_eq (obj_eq h)]
  rfl

theorem rawAt_run {a : Addr} {i : Nat} {s : State α} {o : Obj α} {x : α} (h : s.mem[a]? = some (some o))
    (hx : o.cells[i]? = some (.raw (some x))) : rawAt a i s = .ok x s := by
  unfold rawAt
  rw [bind_eq (obj_eq h)]
  simp only [hx]
  rfl

theorem setRaw_run {a : Addr} {i : Nat} {s : State α} {o : Obj α} {y : Option α} (h : s.mem[a]? = some (some o))
    (hx : o.cells[i]? = some (.raw y)) (x : α) :
    setRaw a i x s = .ok () (upd s a { o with cells := o.cells.set i (.raw (some x)) }) := by
  unfold setRaw
  rw [bind_eq (obj_eq h)]
  simp only [hx]
  rfl

theorem dereference_arr [Env α] {l : Loc} {s : State α} {a : Addr} (h : readLoc l s = .ok (.arr a) s) :
    dereference l s = .ok l s := by
  unfold dereference
  rw [bind_eq h]
  rfl

theorem reference_arr {a : Addr} {i : Nat} {s : State α} {o : Obj α} (h : s.mem[a]? = some (some o)) :
    reference (.arr a) i s = .ok (.ref a i) (upd s a { o with rc := o.rc + 1 }) := by
  unfold reference
  rw [bind_eq (typeV_arr a s)]
  have h1 : ¬ ((i : Int) < -1) := by omega
  have h2 : ¬ ((i : Int) = -1) := by omega
  simp only [h1, if_false, bind_eq (attach_run (v := V.arr a) rfl h), h2]
  rfl

theorem at'_arr [Env α] {a : Addr} {i : Nat} {s : State α} {o : Obj α} (h : s.mem[a]? = some (some o)) :
    at' (.arr a) i s = .ok (.ref a i) (upd s a { o with rc := o.rc + 1 }) := by
  unfold at'
  rw [bind_eq (attach_run (v := V.arr a) rfl h)]
  refine withVar_run (w := .arr a) (s1 := { upd s a { o with rc := o.rc + 2 } with stk := s.stk ++ [.arr a] })
    ?_ rfl ?_
  · have hr := readTemp (upd s a { o with rc := o.rc + 1 }).mem s.stk (.arr a)
    have hs : (upd s a { o with rc := o.rc + 1 }).stk = s.stk := rfl
    rw [hs]
    rw [bind_eq (dereference_arr hr), bind_eq hr]
    have h2 : ({ mem := (upd s a { o with rc := o.rc + 1 }).mem, stk := s.stk ++ [.arr a] } : State α).mem[a]? =
      some (some { o with rc := o.rc + 1 }) := upd_get h _
    have := reference_arr (i := i) h2
    simp only [this]
    simp [upd, List.set_set]
  · have h2 : ({ mem := (upd s a { o with rc := o.rc + 2 }).mem, stk := s.stk } : State α).mem[a]? =
      some (some { o with rc := o.rc + 2 }) := upd_get h _
    refine (detach_run (v := V.arr a) rfl h2 (by simp)).trans ?_
    simp [upd, List.set_set]

theorem castV_num [Env α] (k j : Kind) (x : α) (s : State α) :
    castV k (.num j x) s = .ok (Env.conv j k x) s := rfl

theorem castV_ref [Env α] {k : Kind} {b : Addr} {j : Nat} {s : State α} {o : Obj α} {x : α}
    (h : s.mem[b]? = some (some o)) (hk : IsNum o.kind) (hx : o.cells[j]? = some (.raw (some x))) :
    castV k (.ref b j) s = .ok (Env.conv o.kind k x) s := by
  unfold castV
  rw [bind_eq (derefV_ref_num h hk)]
  simp only [bind_eq (obj_eq h), bind_eq (rawAt_run h hx)]
  rfl

/-- Assigning to a variable that refers to a number in an array. -/
theorem assign_ref [Env α] {n : Nat} {v : V α} {a : Addr} {i : Nat} {s s2 : State α} {o : Obj α} {x : α}
    {y : Option α} (hn : s.stk[n]? = some (.ref a i)) (h : s.mem[a]? = some (some o)) (hk : IsNum o.kind)
    (hc : castV o.kind v { s with stk := s.stk ++ [v] } = .ok x { s with stk := s.stk ++ [v] })
    (hy : o.cells[i]? = some (.raw y))
    (hd : detachV v (upd s a { o with cells := o.cells.set i (.raw (some x)) }) = .ok () s2) :
    assign (.slot n) v s = .ok () s2 := by
  unfold assign
  rw [bind_eq (readSlot hn)]
  simp only
  refine withVar_run (w := v) (s1 := { upd s a { o with cells := o.cells.set i (.raw (some x)) } with
    stk := s.stk ++ [v] }) ?_ rfl hd
  have h' : ({ mem := s.mem, stk := s.stk ++ [v] } : State α).mem[a]? = some (some o) := h
  rw [bind_eq (obj_eq h')]
  have key : (castV o.kind v >>= fun x => setRaw a i x) { mem := s.mem, stk := s.stk ++ [v] } =
      .ok () { upd s a { o with cells := o.cells.set i (.raw (some x)) } with stk := s.stk ++ [v] } := by
    rw [bind_eq hc, setRaw_run h' hy]
    rfl
  rw [← key]
  revert hk
  cases o.kind <;> simp [IsNum]

/-- Assigning to a temporary reference: a number. -/
theorem refAssign_num [Env α] {a : Addr} {i : Nat} {s : State α} {o : Obj α} {y : Option α} (j : Kind) (x : α)
    (h : s.mem[a]? = some (some o)) (hk : IsNum o.kind) (hy : o.cells[i]? = some (.raw y)) (hr : 2 ≤ o.rc) :
    withVar (.ref a i) (fun lr => attachV (.num j x) >>= fun _ => assign lr (.num j x)) s =
      .ok () (upd s a { o with rc := o.rc - 1, cells := o.cells.set i (.raw (some (Env.conv j o.kind x))) }) := by
  refine withVar_run (w := .ref a i) (s1 := { upd s a { o with cells := o.cells.set i (.raw (some (Env.conv j o.kind x))) } with stk := s.stk ++ [.ref a i] }) ?_ rfl ?_
  · rw [bind_eq (attach_none rfl _)]
    refine assign_ref (a := a) (i := i) (o := o) (x := Env.conv j o.kind x) (y := y) ?_ h hk (castV_num _ _ _ _) hy ?_
    · simp
    · exact detach_none rfl _
  · exact detach_upd (v := V.ref a i) (s := s) rfl h hr

/-- An element of the same array. -/
theorem refAssign_same [Env α] {a : Addr} {i j : Nat} {s : State α} {o : Obj α} {y : Option α} {x : α}
    (h : s.mem[a]? = some (some o)) (hk : IsNum o.kind) (hy : o.cells[i]? = some (.raw y))
    (hx : o.cells[j]? = some (.raw (some x))) (hr : 2 ≤ o.rc) :
    withVar (.ref a i) (fun lr => attachV (.ref a j) >>= fun _ => assign lr (.ref a j)) s =
      .ok () (upd s a { o with rc := o.rc - 1, cells := o.cells.set i (.raw (some (Env.conv o.kind o.kind x))) }) := by
  refine withVar_run (w := .ref a i) (s1 := { upd s a { o with cells := o.cells.set i (.raw (some (Env.conv o.kind o.kind x))) } with stk := s.stk ++ [.ref a i] }) ?_ rfl ?_
  · have h0 : ({ mem := s.mem, stk := s.stk ++ [.ref a i] } : State α).mem[a]? = some (some o) := h
    rw [bind_eq (attach_run (v := V.ref a j) rfl h0)]
    refine assign_ref (a := a) (i := i) (o := { o with rc := o.rc + 1 }) (x := Env.conv o.kind o.kind x) (y := y)
      ?_ (upd_get h0 _) hk (castV_ref (o := { o with rc := o.rc + 1 }) (upd_get h0 _) hk hx) hy ?_
    · simp [upd]
    · rw [upd_upd]
      refine (detach_run (v := V.ref a j) rfl (upd_get h0 _) (by simp; omega)).trans ?_
      simp [upd, List.set_set]
  · exact detach_upd (v := V.ref a i) (s := s) rfl h hr

theorem upd_comm {s : State α} {a b : Addr} (h : a ≠ b) (o p : Obj α) :
    upd (upd s a o) b p = upd (upd s b p) a o := by
  simp [upd, List.set_comm _ _ h]

/-- An element of another array. -/
theorem refAssign_other [Env α] {a b : Addr} {i j : Nat} {s : State α} {o p : Obj α} {y : Option α} {x : α}
    (hab : a ≠ b) (h : s.mem[a]? = some (some o)) (hk : IsNum o.kind) (hy : o.cells[i]? = some (.raw y))
    (hb : s.mem[b]? = some (some p)) (hkb : IsNum p.kind)
    (hx : p.cells[j]? = some (.raw (some x))) (hr : 2 ≤ o.rc) (hrb : 1 ≤ p.rc) :
    withVar (.ref a i) (fun lr => attachV (.ref b j) >>= fun _ => assign lr (.ref b j)) s =
      .ok () (upd s a { o with rc := o.rc - 1, cells := o.cells.set i (.raw (some (Env.conv p.kind o.kind x))) }) := by
  refine withVar_run (w := .ref a i) (s1 := { upd s a { o with cells := o.cells.set i (.raw (some (Env.conv p.kind o.kind x))) } with stk := s.stk ++ [.ref a i] }) ?_ rfl ?_
  · have h0 : ({ mem := s.mem, stk := s.stk ++ [.ref a i] } : State α).mem[a]? = some (some o) := h
    have hb0 : ({ mem := s.mem, stk := s.stk ++ [.ref a i] } : State α).mem[b]? = some (some p) := hb
    rw [bind_eq (attach_run (v := V.ref b j) rfl hb0)]
    refine assign_ref (a := a) (i := i) (o := o) (x := Env.conv p.kind o.kind x) (y := y)
      ?_ ((upd_other (Ne.symm hab) _).trans h0) hk
      (castV_ref (o := { p with rc := p.rc + 1 }) (upd_get hb0 _) hkb hx) hy ?_
    · simp [upd]
    · rw [upd_comm (Ne.symm hab)]
      have hb1 : (upd (upd { mem := s.mem, stk := s.stk ++ [.ref a i] } a { o with cells := o.cells.set i (.raw (some (Env.conv p.kind o.kind x))) }) b { p with rc := p.rc + 1 }).mem[b]? =
          some (some { p with rc := p.rc + 1 }) :=
        upd_get ((upd_other hab _).trans hb0) _
      refine (detach_run (v := V.ref b j) rfl hb1 (by simp; omega)).trans ?_
      rw [upd_upd]
      simp only [Nat.add_sub_cancel]
      rw [upd_self ((upd_other hab _).trans hb0)]
      rfl
  · exact detach_upd (v := V.ref a i) (s := s) rfl h hr

/-- `at(i) = v` for a number. -/
theorem setAt_num [Env α] {a : Addr} {i : Nat} {s : State α} {o : Obj α} {y : Option α} (j : Kind) (x : α)
    (h : s.mem[a]? = some (some o)) (hk : IsNum o.kind) (hy : o.cells[i]? = some (.raw y)) (hr : 1 ≤ o.rc) :
    setAt (.arr a) i (.num j x) s =
      .ok () (upd s a { o with cells := o.cells.set i (.raw (some (Env.conv j o.kind x))) }) := by
  refine withVar_run (w := .num j x) (s1 := { upd s a { o with cells := o.cells.set i (.raw (some (Env.conv j o.kind x))) } with stk := s.stk ++ [.num j x] }) ?_ rfl (detach_none rfl _)
  have h0 : ({ mem := s.mem, stk := s.stk ++ [.num j x] } : State α).mem[a]? = some (some o) := h
  rw [bind_eq (at'_arr h0)]
  refine (refAssign_num (o := { o with rc := o.rc + 1 }) j x (upd_get h0 _) hk hy (by simp; omega)).trans ?_
  simp [upd, List.set_set]

/-- `at(i) = at(j)` for the reference already made. -/
theorem setAt_same [Env α] {a : Addr} {i j : Nat} {s : State α} {o : Obj α} {y : Option α} {x : α}
    (h : s.mem[a]? = some (some o)) (hk : IsNum o.kind) (hy : o.cells[i]? = some (.raw y))
    (hx : o.cells[j]? = some (.raw (some x))) (hr : 2 ≤ o.rc) :
    setAt (.arr a) i (.ref a j) s =
      .ok () (upd s a { o with rc := o.rc - 1, cells := o.cells.set i (.raw (some (Env.conv o.kind o.kind x))) }) := by
  refine withVar_run (w := .ref a j) (s1 := { upd s a { o with cells := o.cells.set i (.raw (some (Env.conv o.kind o.kind x))) } with stk := s.stk ++ [.ref a j] }) ?_ rfl ?_
  · have h0 : ({ mem := s.mem, stk := s.stk ++ [.ref a j] } : State α).mem[a]? = some (some o) := h
    rw [bind_eq (at'_arr h0)]
    refine (refAssign_same (o := { o with rc := o.rc + 1 }) (upd_get h0 _) hk hy hx (by simp; omega)).trans ?_
    simp [upd, List.set_set]
  · exact detach_upd (v := V.ref a j) (s := s) rfl h hr

/-- An element of another array, which stays. -/
theorem setAt_other [Env α] {a b : Addr} {i j : Nat} {s : State α} {o p : Obj α} {y : Option α} {x : α}
    (hab : a ≠ b) (h : s.mem[a]? = some (some o)) (hk : IsNum o.kind) (hy : o.cells[i]? = some (.raw y))
    (hb : s.mem[b]? = some (some p)) (hkb : IsNum p.kind)
    (hx : p.cells[j]? = some (.raw (some x))) (hr : 1 ≤ o.rc) (hrb : 2 ≤ p.rc) :
    setAt (.arr a) i (.ref b j) s =
      .ok () (upd (upd s a { o with cells := o.cells.set i (.raw (some (Env.conv p.kind o.kind x))) })
        b { p with rc := p.rc - 1 }) := by
  refine withVar_run (w := .ref b j) (s1 := { upd s a { o with cells := o.cells.set i (.raw (some (Env.conv p.kind o.kind x))) } with stk := s.stk ++ [.ref b j] }) ?_ rfl ?_
  · have h0 : ({ mem := s.mem, stk := s.stk ++ [.ref b j] } : State α).mem[a]? = some (some o) := h
    have hb0 : ({ mem := s.mem, stk := s.stk ++ [.ref b j] } : State α).mem[b]? = some (some p) := hb
    rw [bind_eq (at'_arr h0)]
    refine (refAssign_other (o := { o with rc := o.rc + 1 }) (p := p) hab (upd_get h0 _) hk hy
      ((upd_other hab _).trans hb0) hkb hx (by simp; omega) (by omega)).trans ?_
    simp [upd, List.set_set]
  · exact detach_run (v := V.ref b j) rfl ((upd_other hab _).trans hb) hrb

/-! ## Contents -/

/-- An array of numbers of size `n` of which the first ones are known; if `P`, a string is terminated. -/
structure Has [Env α] (P : Prop) (o : Obj α) (n : Nat) (xs : List α) : Prop where
  num : IsNum o.kind
  size : o.size = n
  le : xs.length ≤ n
  elem : ∀ (i : Nat) (x : α), xs[i]? = some x → o.cells[i]? = some (.raw (some x))
  cap : n ≤ o.cells.length
  raw : ∀ c ∈ o.cells, ∃ y, c = Cell.raw y
  nul : P → o.kind = .char → o.cells[n]? = some (.raw (some Env.nul))

theorem Has.place [Env α] {o : Obj α} {n : Nat} {xs : List α} (h : Has P o n xs) {i : Nat} (hi : i < n) :
    ∃ y, o.cells[i]? = some (.raw y) := by
  have hl : i < o.cells.length := Nat.lt_of_lt_of_le hi h.cap
  obtain ⟨y, hy⟩ := h.raw _ (List.getElem_mem hl)
  exact ⟨y, by rw [List.getElem?_eq_getElem hl, hy]⟩

theorem Has.any [Env α] {P Q : Prop} {o : Obj α} {n : Nat} {xs : List α} (h : Has P o n xs) (hp : Q → P) :
    Has Q o n xs := ⟨h.num, h.size, h.le, h.elem, h.cap, h.raw, fun q => h.nul (hp q)⟩

theorem Has.rc [Env α] {o : Obj α} {n : Nat} {xs : List α} (h : Has P o n xs) (r : Nat) :
    Has P { o with rc := r } n xs := ⟨h.num, h.size, h.le, h.elem, h.cap, h.raw, h.nul⟩

theorem Has.less [Env α] {o : Obj α} {n : Nat} {xs : List α} (h : Has P o n xs) (m : Nat) : Has P o n (xs.take m) :=
  ⟨h.num, h.size, by have := h.le; simp; omega, fun i x hx => h.elem i x (by
    rw [List.getElem?_take] at hx
    split at hx
    · exact hx
    · cases hx), h.cap, h.raw, h.nul⟩

theorem raw_of_set {cells : List (Cell α)} (h : ∀ c ∈ cells, ∃ y, c = Cell.raw y) (i : Nat) (x : Option α) :
    ∀ c ∈ cells.set i (.raw x), ∃ y, c = Cell.raw y := by
  intro c hc
  rcases List.mem_or_eq_of_mem_set hc with h1 | h1
  · exact h c h1
  · exact ⟨x, h1⟩

theorem Has.set [Env α] {o : Obj α} {n : Nat} {xs : List α} (h : Has P o n xs) {i : Nat} (hi : i < xs.length)
    (x : α) : Has P { o with cells := o.cells.set i (.raw (some x)) } n (xs.set i x) := by
  have hle := h.le
  have hc := h.cap
  refine ⟨h.num, h.size, by simpa using hle, fun j y hy => ?_, by simpa using hc, raw_of_set h.raw _ _, fun hP hk => ?_⟩
  · by_cases hij : i = j
    · subst hij
      rw [List.getElem?_set_self hi] at hy
      cases hy
      exact List.getElem?_set_self (by omega)
    · rw [List.getElem?_set_ne hij] at hy
      simp only
      rw [List.getElem?_set_ne hij]
      exact h.elem j y hy
  · simp only
    rw [List.getElem?_set_ne (by omega)]
    exact h.nul hP hk

theorem Has.snoc [Env α] {o : Obj α} {n : Nat} {xs : List α} (h : Has P o n xs) (hi : xs.length < n)
    (x : α) : Has P { o with cells := o.cells.set xs.length (.raw (some x)) } n (xs ++ [x]) := by
  have hc := h.cap
  refine ⟨h.num, h.size, by simp; omega, fun j y hy => ?_, by simpa using hc, raw_of_set h.raw _ _, fun hP hk => ?_⟩
  · by_cases hij : xs.length = j
    · subst hij
      rw [List.getElem?_concat_length] at hy
      cases hy
      exact List.getElem?_set_self (by omega)
    · simp only
      rw [List.getElem?_set_ne hij]
      have hj : j < xs.length := by
        have := (List.getElem?_eq_some_iff.1 hy).1
        simp at this
        omega
      rw [List.getElem?_append_left hj] at hy
      exact h.elem j y hy
  · simp only
    rw [List.getElem?_set_ne (by omega)]
    exact h.nul hP hk

theorem growCells_run {k : Kind} {cells : List (Cell α)} {c : Int} (hk : IsNum k)
    (hr : ∀ c ∈ cells, ∃ y, c = Cell.raw y) (hc : 0 ≤ c) :
    ∃ cells' : List (Cell α), growCells k cells c = .ok cells' ∧ (∀ c ∈ cells', ∃ y, c = Cell.raw y) ∧
      c ≤ cells'.length ∧ ∀ (i : Nat) (c' : Cell α), cells[i]? = some c' → cells'[i]? = some c' := by
  have hf : (freshCell k : Cell α) = .raw none := by
    revert hk
    cases k <;> simp [IsNum, freshCell]
  unfold growCells
  by_cases h0 : cells.length = 0
  · rw [if_pos h0, if_neg (by omega)]
    refine ⟨_, rfl, ?_, by simp, fun i c' h => ?_⟩
    · intro c' h
      rw [List.eq_of_mem_replicate h, hf]
      exact ⟨none, rfl⟩
    · have := (List.getElem?_eq_some_iff.1 h).1
      omega
  · rw [if_neg h0]
    by_cases h1 : (cells.length : Int) < c
    · rw [if_pos h1]
      refine ⟨_, rfl, ?_, by simp; omega, fun i c' h => ?_⟩
      · intro c' h
        rcases List.mem_append.1 h with h | h
        · exact hr c' h
        · rw [List.eq_of_mem_replicate h, hf]
          exact ⟨none, rfl⟩
      · rw [List.getElem?_append_left (List.getElem?_eq_some_iff.1 h).1, h]
    · rw [if_neg h1]
      exact ⟨_, rfl, hr, by omega, fun i c' h => h⟩

theorem resizeObj_run [Env α] {o : Obj α} {m : Nat} (hk : IsNum o.kind)
    (hr : ∀ c ∈ o.cells, ∃ y, c = Cell.raw y) (hm : m + 1 ≤ 2 ^ 30) :
    ∃ cells' : List (Cell α), resizeObj o m = .ok { o with size := m, cells := cells' } ∧
      (∀ c ∈ cells', ∃ y, c = Cell.raw y) ∧ m ≤ cells'.length ∧
      (∀ (i : Nat) (c' : Cell α), (i < m ∨ o.kind ≠ .char ∨ m < i) → o.cells[i]? = some c' → cells'[i]? = some c') ∧
      (o.kind = .char → cells'[m]? = some (.raw (some Env.nul))) := by
  unfold resizeObj
  have hb : (if o.kind = .char then (m : Int) + 1 else m) ≤ 2 ^ 30 := by split <;> omega
  have hb0 : 0 ≤ (if o.kind = .char then (m : Int) + 1 else m) := by split <;> omega
  obtain ⟨c, hc, hl⟩ := Alloc.allocSize_least _ hb0 hb
  have hcm : (if o.kind = .char then (m : Int) + 1 else m) ≤ c := hl.2.1
  obtain ⟨cells, hg, hraw, hlen, hkeep⟩ := growCells_run (c := c) hk hr (by omega)
  rw [hc, Outcome.bind_ok, hg, Outcome.bind_ok]
  unfold terminate
  by_cases hch : o.kind = .char
  · rw [if_pos hch] at hcm ⊢
    rw [if_pos (show m < cells.length by omega), Outcome.bind_ok]
    refine ⟨_, rfl, raw_of_set hraw _ _, by simp; omega, fun i c' hi h => ?_, fun _ =>
      List.getElem?_set_self (by omega)⟩
    rw [List.getElem?_set_ne (by rcases hi with hi | hi | hi <;> first | omega | exact absurd hch hi)]
    exact hkeep i c' h
  · rw [if_neg hch] at hcm ⊢
    rw [Outcome.bind_ok]
    exact ⟨_, rfl, hraw, by omega, fun i c' _ h => hkeep i c' h, fun h => absurd h hch⟩

theorem heapResize_run [Env α] {a : Addr} {n m : Nat} {s : State α} {o : Obj α} {xs : List α}
    (h : s.mem[a]? = some (some o)) (hh : Has P o n xs) (hm : m + 1 ≤ 2 ^ 30) :
    ∃ o' : Obj α, heapResize a m s = .ok () (upd s a o') ∧ Has True o' m (xs.take m) ∧ o'.kind = o.kind ∧ o'.rc = o.rc ∧
      ∀ (i : Nat) (c : Cell α), (i < m ∨ o.kind ≠ .char ∨ m < i) → o.cells[i]? = some c → o'.cells[i]? = some c := by
  obtain ⟨cells', h1, h2, h3, h4, h5⟩ := resizeObj_run (o := o) (m := m) hh.num hh.raw hm
  refine ⟨{ o with size := m, cells := cells' }, ?_, ⟨hh.num, rfl, by simp, fun i x hx => ?_, h3, h2, fun _ => h5⟩, rfl, rfl, h4⟩
  · unfold heapResize
    rw [bind_eq (obj_eq h), h1]
    rfl
  · rw [List.getElem?_take] at hx
    split at hx
    · exact h4 i _ (.inl (by omega)) (hh.elem i x hx)
    · cases hx

theorem resize_run [Env α] {k : Nat} {a : Addr} {n m : Nat} {s : State α} {o : Obj α} {xs : List α}
    (hk : s.stk[k]? = some (.arr a))
    (h : s.mem[a]? = some (some o)) (hh : Has P o n xs) (hm : m + 1 ≤ 2 ^ 30) :
    ∃ o' : Obj α, resize (.slot k) m s = .ok () (upd s a o') ∧ Has True o' m (xs.take m) ∧ o'.kind = o.kind ∧
      o'.rc = o.rc ∧
      ∀ (i : Nat) (c : Cell α), (i < m ∨ o.kind ≠ .char ∨ m < i) → o.cells[i]? = some c → o'.cells[i]? = some c := by
  obtain ⟨o', h1, h2⟩ := heapResize_run h hh hm
  refine ⟨o', ?_, h2⟩
  unfold resize
  rw [if_neg (show ¬ ((m : Int) < 0) by omega)]
  rw [bind_eq (dereference_arr (readSlot hk)), bind_eq (readSlot hk)]
  simp only [bind_eq (readSlot hk), bind_eq (heapOf_arr a s)]
  exact h1

theorem array_arr [Env α] {k : Nat} {a : Addr} {s : State α} (hk : s.stk[k]? = some (.arr a)) :
    array (.slot k) s = .ok () s := by
  unfold array
  rw [bind_eq (dereference_arr (readSlot hk)), bind_eq (readSlot hk)]
  rfl

/-- The tail of `operator[]`. -/
theorem index_tail [Env α] {k : Nat} {a : Addr} {i : Nat} {s : State α} {o : Obj α}
    (hk : s.stk[k]? = some (.arr a)) (h : s.mem[a]? = some (some o)) :
    (array (.slot k) >>= fun _ => readLoc (.slot k) >>= fun v => reference v i) s =
      .ok (.ref a i) (upd s a { o with rc := o.rc + 1 }) := by
  rw [bind_eq (array_arr hk), bind_eq (readSlot hk)]
  exact reference_arr h

theorem index_in [Env α] {k : Nat} {a : Addr} {i : Nat} {s : State α} {o : Obj α}
    (hk : s.stk[k]? = some (.arr a)) (h : s.mem[a]? = some (some o)) (hi : i < o.size) :
    index (.slot k) i s = .ok (.ref a i) (upd s a { o with rc := o.rc + 1 }) := by
  unfold index
  rw [bind_eq (readSlot hk)]
  simp only
  unfold indexPlain
  rw [if_neg (show ¬ ((i : Int) < 0) by omega), bind_eq (readSlot hk), bind_eq (sizeV_arr h)]
  rw [if_neg (show ¬ ((i : Int) ≥ (o.size : Int)) by omega)]
  exact index_tail hk h

theorem index_run [Env α] {k : Nat} {a : Addr} {n i : Nat} {s : State α} {o : Obj α} {xs : List α}
    (hk : s.stk[k]? = some (.arr a)) (h : s.mem[a]? = some (some o)) (hh : Has P o n xs) (hi : i + 2 ≤ 2 ^ 30) :
    ∃ o' : Obj α, index (.slot k) i s = .ok (.ref a i) (upd s a o') ∧ Has P o' (max n (i + 1)) xs ∧
      o'.kind = o.kind ∧ o'.rc = o.rc + 1 := by
  by_cases hlt : i < n
  · refine ⟨{ o with rc := o.rc + 1 }, index_in hk h (by rw [hh.size]; exact hlt), ?_, rfl, rfl⟩
    rw [show max n (i + 1) = n by omega]
    exact hh.rc _
  · obtain ⟨o', h1, h2, h3, h4, -⟩ := resize_run (m := i + 1) hk h hh (by omega)
    replace h2 := h2.any (Q := P) (fun _ => trivial)
    refine ⟨{ o' with rc := o'.rc + 1 }, ?_, ?_, h3, by simp [h4]⟩
    · unfold index
      rw [bind_eq (readSlot hk)]
      simp only
      unfold indexPlain
      rw [if_neg (show ¬ ((i : Int) < 0) by omega), bind_eq (readSlot hk), bind_eq (sizeV_arr h)]
      rw [if_pos (show ((i : Int) ≥ (o.size : Int)) by rw [hh.size]; omega)]
      have h1' : resize (.slot k) ((i : Int) + 1) s = .ok () (upd s a o') := by
        rw [← h1]
        congr 1
      rw [bind_eq h1']
      refine (index_tail (s := upd s a o') hk (upd_get h o')).trans ?_
      rw [upd_upd]
    · rw [show max n (i + 1) = i + 1 by omega]
      have := h2.rc (o'.rc + 1)
      rwa [List.take_of_length_le (by have := hh.le; omega)] at this

/-- `x[i] = v` for a number. -/
theorem setIndex_num [Env α] {k : Nat} {a : Addr} {n i : Nat} {s : State α} {o : Obj α} {xs : List α} (j : Kind)
    (x : α) (hk : s.stk[k]? = some (.arr a)) (h : s.mem[a]? = some (some o)) (hh : Has P o n xs)
    (hi : i + 2 ≤ 2 ^ 30) (hr : 1 ≤ o.rc) :
    ∃ o' : Obj α, setIndex (.slot k) i (.num j x) s =
        .ok () (upd s a { o' with cells := o'.cells.set i (.raw (some (Env.conv j o.kind x))) }) ∧
      Has P o' (max n (i + 1)) xs ∧ o'.kind = o.kind ∧ o'.rc = o.rc := by
  have h0 : ({ mem := s.mem, stk := s.stk ++ [.num j x] } : State α).mem[a]? = some (some o) := h
  obtain ⟨o', h1, h2, h3, h4⟩ := index_run (s := { mem := s.mem, stk := s.stk ++ [.num j x] }) (i := i)
    (slot_append hk) h0 hh hi
  refine ⟨{ o' with rc := o.rc }, ?_, h2.rc _, h3, rfl⟩
  obtain ⟨y, hy⟩ := h2.place (i := i) (by omega)
  refine withVar_run (w := .num j x) (s1 := { upd s a { o' with rc := o.rc, cells := o'.cells.set i (.raw (some (Env.conv j o.kind x))) } with stk := s.stk ++ [.num j x] }) ?_ rfl (detach_none rfl _)
  rw [bind_eq h1]
  refine (refAssign_num (o := o') j x (upd_get h0 _) h2.num hy (by omega)).trans ?_
  rw [upd_upd, h3, h4]
  rfl

theorem push_num [Env α] {k : Nat} {a : Addr} {n : Nat} {s : State α} {o : Obj α} {xs : List α} (j : Kind)
    (x : α) (hk : s.stk[k]? = some (.arr a)) (h : s.mem[a]? = some (some o)) (hh : Has P o n xs)
    (hx : xs.length = n) (hn : n + 2 ≤ 2 ^ 30) (hr : 1 ≤ o.rc) :
    ∃ o' : Obj α, push (.slot k) (.num j x) s = .ok () (upd s a o') ∧
      Has P o' (n + 1) (xs ++ [Env.conv j o.kind x]) ∧ o'.kind = o.kind ∧ o'.rc = o.rc := by
  have h0 : ({ mem := s.mem, stk := s.stk ++ [.num j x] } : State α).mem[a]? = some (some o) := h
  have hk0 : ({ mem := s.mem, stk := s.stk ++ [.num j x] } : State α).stk[k]? = some (.arr a) := slot_append hk
  obtain ⟨o', h1, h2, h3, h4⟩ := setIndex_num (i := n) j x hk0 h0 hh hn hr
  have h5 := h2.snoc (by omega) (Env.conv j o.kind x)
  refine ⟨{ o' with cells := o'.cells.set n (.raw (some (Env.conv j o.kind x))) }, ?_, ?_, h3, h4⟩
  · refine withVar_run (w := .num j x) (s1 := { upd s a { o' with cells := o'.cells.set n (.raw (some (Env.conv j o.kind x))) } with stk := s.stk ++ [.num j x] }) ?_ rfl (detach_none rfl _)
    rw [bind_eq (readSlot hk0)]
    simp only [bind_eq (definedV_arr a _), Bool.not_true, Bool.false_eq_true, if_false]
    simp only [bind_eq (typeV_arr a _), bind_eq (typeV_num j x _), ne_eq, not_true_eq_false, false_and, if_false]
    rw [bind_eq (attach_none rfl _), bind_eq (sizeV_arr h0), hh.size]
    exact h1
  · rw [hx] at h5
    rwa [show max n (n + 1) = n + 1 by omega] at h5

theorem pop_run [Env α] {k : Nat} {a : Addr} {n : Nat} {s : State α} {o : Obj α} {xs : List α}
    (hk : s.stk[k]? = some (.arr a)) (h : s.mem[a]? = some (some o)) (hh : Has P o (n + 1) xs)
    (hn : n + 1 ≤ 2 ^ 30) (hr : 1 ≤ o.rc) :
    ∃ o' : Obj α, pop (.slot k) s = .ok (.ref a n) (upd s a { o' with rc := o.rc + 1 }) ∧
      Has True o' n (xs.take n) ∧ o'.kind = o.kind ∧
      ∀ (i : Nat) (c : Cell α), (i < n ∨ o.kind ≠ .char ∨ n < i) → o.cells[i]? = some c → o'.cells[i]? = some c := by
  have hm : ((o.size : Nat) : Int) - 1 = (n : Nat) := by rw [hh.size]; omega
  obtain ⟨o', h1, h2, h3, h4, h5⟩ := resize_run (m := n) (s := { upd s a { o with rc := o.rc + 1 } with stk := s.stk ++ [.ref a n] })
    (slot_append hk) (upd_get h _) (hh.rc (o.rc + 1)) hn
  simp only at h4
  have hg : (upd { upd s a { o with rc := o.rc + 1 } with stk := s.stk ++ [.ref a n] } a o').mem[a]? =
      some (some o') := upd_get (upd_get h _) _
  refine ⟨o', ?_, h2, h3, h5⟩
  unfold pop
  rw [bind_eq (readSlot hk), bind_eq (sizeV_arr h), hm, bind_eq (at'_arr h)]
  refine withVar_run (w := .ref a n) (s1 := { upd s a { o' with rc := o'.rc + 1 } with stk := s.stk ++ [.ref a n] }) ?_ rfl ?_
  · refine (bind_eq h1).trans ?_
    have hl : readLoc (.slot s.stk.length)
        (upd { upd s a { o with rc := o.rc + 1 } with stk := s.stk ++ [.ref a n] } a o') = .ok (.ref a n) _ :=
      readSlot (by simp [upd])
    have hs : (upd s a { o with rc := o.rc + 1 }).stk = s.stk := rfl
    rw [hs]
    refine (bind_eq hl).trans ((copyV_run (v := V.ref a n) rfl hg).trans ?_)
    simp [upd, List.set_set]
  · refine (detach_upd (v := V.ref a n) (s := s) rfl h ?_).trans ?_
    · simp; omega
    · simp [h4]

theorem shift_boxed [Env α] {k : Nat} {a : Addr} {n : Nat} {s : State α} {o : Obj α} {xs : List α} {x : α}
    (hk : s.stk[k]? = some (.arr a)) (h : s.mem[a]? = some (some o)) (hh : Has P o (n + 1) (x :: xs))
    (hn : n + 1 ≤ 2 ^ 30) :
    ∃ o' : Obj α, shift (.slot k) s = boxed o.kind x (upd s a o') ∧ Has P o' n xs ∧ o'.kind = o.kind ∧
      o'.rc = o.rc := by
  have hcap := hh.cap
  have hle := hh.le
  have hsz := hh.size
  have hlen : (shiftedRaws o).length = o.cells.length := by
    unfold shiftedRaws
    simp [hsz]
    omega
  have hget : ∀ i, i < n → (shiftedRaws o)[i]? = o.cells[i + 1]? := by
    intro i hi
    unfold shiftedRaws
    rw [List.getElem?_append_left (by simp [hsz]; omega), List.getElem?_drop, hsz, List.getElem?_take,
      if_pos (by omega), Nat.add_comm]
  have hraw : ∀ c ∈ shiftedRaws o, ∃ y, c = Cell.raw y := by
    intro c hc
    rcases List.mem_append.1 hc with h' | h'
    · exact hh.raw c (List.mem_of_mem_take (List.mem_of_mem_drop h'))
    · exact hh.raw c (List.mem_of_mem_drop h')
  obtain ⟨cells', h1, h2, h3, h4, h5⟩ := resizeObj_run (o := { o with cells := shiftedRaws o }) (m := n)
    hh.num hraw hn
  refine ⟨{ o with size := n, cells := cells' }, ?_, ⟨hh.num, rfl, by simpa using hle, fun i y hy => ?_, h3, h2, fun _ => h5⟩,
    rfl, rfl⟩
  · unfold shift
    rw [bind_eq (readSlot hk), bind_eq (heapOf_arr a s)]
    simp only
    unfold heapShift
    rw [bind_eq (obj_eq h), if_neg (show ¬ (o.size = 0 ∨ o.cells.length < o.size) by omega),
      if_neg (show ¬ (o.kind = .var ∨ o.kind = .pair) from fun hc => hc.elim hh.num.1 hh.num.2)]
    unfold shiftNums
    rw [bind_eq (rawAt_run h (hh.elem 0 x rfl))]
    have hs : (setObj a { o with cells := shiftedRaws o } : M α Unit) s =
      .ok () (upd s a { o with cells := shiftedRaws o }) := rfl
    rw [bind_eq hs]
    have hr : heapResize a (o.size - 1) (upd s a { o with cells := shiftedRaws o }) =
        .ok () (upd s a { o with size := n, cells := cells' }) := by
      unfold heapResize
      have he : o.size - 1 = n := by omega
      rw [bind_eq (obj_eq (upd_get h _)), he, h1]
      simp [liftO, bind_run, M.bind, setObj, upd, List.set_set]
    rw [bind_eq hr]
  · have hi : i < xs.length := (List.getElem?_eq_some_iff.1 hy).1
    simp only [List.length_cons] at hle
    refine h4 i _ (.inl (by omega)) ?_
    simp only
    rw [hget i (by omega)]
    exact hh.elem (i + 1) y (by simpa using hy)

theorem shift_run [Env α] {k : Nat} {a : Addr} {n : Nat} {s : State α} {o : Obj α} {xs : List α} {x : α}
    (hk : s.stk[k]? = some (.arr a)) (h : s.mem[a]? = some (some o)) (hh : Has P o (n + 1) (x :: xs))
    (hn : n + 1 ≤ 2 ^ 30) (hkind : o.kind ≠ .cdouble) :
    ∃ o' : Obj α, shift (.slot k) s = .ok (.num o.kind x) (upd s a o') ∧ Has P o' n xs ∧ o'.kind = o.kind ∧
      o'.rc = o.rc := by
  obtain ⟨o', h1, h2⟩ := shift_boxed hk h hh hn
  refine ⟨o', h1.trans ?_, h2⟩
  unfold boxed
  rw [if_neg hkind]
  rfl

theorem unshift_num [Env α] {k : Nat} {a : Addr} {n : Nat} {s : State α} {o : Obj α} {xs : List α} (x : α)
    (hk : s.stk[k]? = some (.arr a)) (h : s.mem[a]? = some (some o)) (hh : Has P o n xs)
    (hn : n + 2 ≤ 2 ^ 30) :
    ∃ o' : Obj α, unshift (.slot k) (.num o.kind x) s = .ok () (upd s a o') ∧ Has P o' (n + 1) (x :: xs) ∧
      o'.kind = o.kind ∧ o'.rc = o.rc := by
  let s1 : State α := { mem := s.mem, stk := s.stk ++ [.num o.kind x] }
  have h0 : s1.mem[a]? = some (some o) := h
  have hk0 : s1.stk[k]? = some (.arr a) := slot_append hk
  let s2 : State α := { mem := s.mem, stk := s1.stk ++ [.num o.kind x] }
  have h02 : s2.mem[a]? = some (some o) := h
  obtain ⟨o', h1, h2, h3, h4, -⟩ := heapResize_run (m := n + 1) h02 hh (by omega)
  replace h2 := h2.any (Q := P) (fun _ => trivial)
  have hcap := h2.cap
  have hsz := h2.size
  have hle := hh.le
  obtain ⟨c, cs, hcs⟩ : ∃ c cs, o'.cells = c :: cs := by
    cases hc : o'.cells with
    | nil => rw [hc] at hcap; simp at hcap
    | cons c cs => exact ⟨c, cs, rfl⟩
  obtain ⟨y, hy⟩ := h2.raw c (by rw [hcs]; exact List.mem_cons_self ..)
  have hu0 : (unshifted c o')[0]? = some (.raw y) := by simp [unshifted, hy]
  have hlen : (unshifted c o').length = o'.cells.length := by
    unfold unshifted
    simp [hsz]
    omega
  have hlow : ∀ i, i < n → (unshifted c o')[i + 1]? = o'.cells[i]? := by
    intro i hi
    unfold unshifted
    rw [List.getElem?_cons_succ, List.getElem?_append_left (by simp [hsz]; omega), List.getElem?_take,
      if_pos (by omega)]
  have hnul : (unshifted c o')[n + 1]? = o'.cells[n + 1]? := by
    unfold unshifted
    rw [List.getElem?_cons_succ, List.getElem?_append_right (by simp [hsz]), List.getElem?_drop, hsz]
    congr 1
    simp
    omega
  have hraw : ∀ c' ∈ unshifted c o', ∃ y, c' = Cell.raw y := by
    intro c' hc'
    rcases List.mem_cons.1 hc' with h' | h'
    · exact ⟨y, h'.trans hy⟩
    · rcases List.mem_append.1 h' with h' | h'
      · exact h2.raw c' (List.mem_of_mem_take h')
      · exact h2.raw c' (List.mem_of_mem_drop h')
  refine ⟨{ o' with cells := (unshifted c o').set 0 (.raw (some x)) }, ?_, ⟨h2.num, h2.size, by simp; omega, ?_, by simp; omega,
    raw_of_set hraw _ _, fun hP hc => ?_⟩, h3, h4⟩
  · refine withVar_run (w := .num o.kind x) (s1 := { upd s a { o' with cells := (unshifted c o').set 0 (.raw (some x)) } with stk := s.stk ++ [.num o.kind x] }) ?_ rfl
      (detach_none rfl _)
    show _ = R.ok () (upd s1 a { o' with cells := (unshifted c o').set 0 (.raw (some x)) })
    rw [bind_eq (readSlot hk0)]
    simp only [bind_eq (definedV_arr a _), Bool.not_true, Bool.false_eq_true, if_false]
    simp only [bind_eq (heapOf_arr a _), bind_eq (pure_run () _)]
    rw [bind_eq (readSlot hk0)]
    simp only [bind_eq (heapOf_arr a _)]
    rw [bind_eq (attach_none rfl _)]
    unfold heapUnshift
    refine withVar_run (w := .num o.kind x) (s1 := upd s2 a { o' with cells := (unshifted c o').set 0 (.raw (some x)) })
      ?_ rfl (detach_none rfl _)
    show _ = R.ok () (upd s2 a _)
    rw [bind_eq (obj_eq h02), hh.size, bind_eq h1, bind_eq (obj_eq (upd_get h02 o'))]
    rw [if_neg h2.num.1, if_neg h2.num.2]
    unfold unshiftNums
    rw [if_neg (by omega), hcs]
    simp only
    have hs : (setObj a { o' with cells := unshifted c o' } : M α Unit) (upd s2 a o') =
      .ok () (upd s2 a { o' with cells := unshifted c o' }) := by simp [setObj, upd, List.set_set]
    rw [bind_eq hs]
    have hg : getV o'.kind (.num o.kind x) (upd s2 a { o' with cells := unshifted c o' }) =
        .ok x (upd s2 a { o' with cells := unshifted c o' }) := by
      unfold getV
      rw [bind_eq (derefV_num _ _ _)]
      simp only [h3, if_true]
      rfl
    rw [bind_eq hg]
    rw [setRaw_run (o := { o' with cells := unshifted c o' }) (upd_get h02 _) hu0, upd_upd]
  · intro i z hz
    cases i with
    | zero =>
      cases hz
      exact List.getElem?_set_self (by omega)
    | succ i =>
      simp only [List.getElem?_cons_succ] at hz
      have hi : i < xs.length := (List.getElem?_eq_some_iff.1 hz).1
      simp only
      rw [List.getElem?_set_ne (by omega), hlow i (by omega)]
      exact h2.elem i z (by rw [List.getElem?_take, if_pos (by omega)]; exact hz)
  · simp only
    rw [List.getElem?_set_ne (by omega), hnul]
    exact h2.nul hP hc

end Libube.Mem

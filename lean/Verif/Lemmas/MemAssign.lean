import Verif.Lemmas.MemMapOps
import Verif.Spec.MemAssign

/-! # Assignment to variables -/

namespace Libube.Mem

open MemSpec

variable {α : Type}

theorem write_slot {s : State α} {own own' : List Addr} (hi : Inv s own) {n : Nat} {t : V α} (h : s.stk[n]? = some t) (x : V α)
    (hown : ∀ b, own.count b + t.ptr.toList.count b = own'.count b + x.ptr.toList.count b) :
    writeLoc (.slot n) x s = .ok () ⟨s.mem, s.stk.set n x⟩ ∧ Inv ⟨s.mem, s.stk.set n x⟩ own' := by
  have hlt := (List.getElem?_eq_some_iff.1 h).1
  refine ⟨by simp [writeLoc, hlt], InvM.congr hi fun b => ?_⟩
  have h1 := stkPtrs_set h x b
  have h2 := hown b
  simp only [List.count_append]
  omega

/-- Sharing. -/
theorem share_slot {s : State α} {own : List Addr} (hi : Inv s own) {n : Nat} {t v : V α} (h : s.stk[n]? = some t) (hr : ¬ t.IsRef)
    (hl : ∀ b ∈ v.ptr.toList, Live s.mem b) :
    ∃ mem', share (.slot n) v s = .ok () ⟨mem', s.stk.set n v⟩ ∧ Inv ⟨mem', s.stk.set n v⟩ own ∧ Kept s.mem mem' := by
  obtain ⟨m1, e1, i1, k1, l1⟩ := attach_tot hi hl
  obtain ⟨e2, i2⟩ := write_slot (own' := t.ptr.toList ++ own) (s := ⟨m1, s.stk⟩) i1 h v (fun b => by simp only [List.count_append]; omega)
  obtain ⟨m3, e3, i3, k3⟩ := detach_tot i2
  refine ⟨m3, ?_, i3, Oth.trans k1 k3⟩
  unfold share
  rw [bind_eq (readSlot h), bind_eq e1, bind_eq e2]
  cases t with
  | arr b => exact e3
  | ref b j => exact absurd trivial hr
  | _ =>
    rw [detach_none rfl] at e3
    simpa [pure_run] using e3

theorem set_append {stk : List (V α)} {n : Nat} {t : V α} (h : stk[n]? = some t) (v w : V α) : (stk ++ [w]).set n v = stk.set n v ++ [w] :=
  List.set_append_left _ _ (List.getElem?_eq_some_iff.1 h).1

/-- `operator=` on a variable. -/
theorem assignSlot_tot [Env α] {s : State α} {own : List Addr} {v w : V α} (hi : Inv s (v.ptr.toList ++ own)) {n : Nat} {t : V α} (h : s.stk[n]? = some t)
    (hr : ¬ t.IsRef) (hd : Deno s.mem v w) :
    ∃ mem', assignPlain (.slot n) v s = .ok () ⟨mem', s.stk.set n w⟩ ∧ Inv ⟨mem', s.stk.set n w⟩ own ∧ Kept s.mem mem' := by
  have hlt := (List.getElem?_eq_some_iff.1 h).1
  have i0 := hi.push
  have hv0 : ∀ {stk : List (V α)}, ∀ b ∈ v.ptr.toList, b ∈ stkPtrs (stk ++ [v]) := fun b hb => by rw [stkPtrs_append]; exact List.mem_append_right _ hb
  obtain ⟨m1, e1, i1, k1⟩ := share_slot (s := { s with stk := s.stk ++ [v] }) i0 (slot_append h) hr (v := v) (fun b hb => i0.stk_live (hv0 b hb))
  simp only [set_append h] at e1 i1
  have hs1 : ∀ x : V α, (s.stk.set n x ++ [v])[n]? = some x := fun x => slot_append (List.getElem?_set_self hlt)
  have key : ∀ m2, (∃ r, dereference (.slot n) ⟨m1, s.stk.set n v ++ [v]⟩ = .ok r ⟨m2, s.stk.set n w ++ [v]⟩) → Inv ⟨m2, s.stk.set n w ++ [v]⟩ own → Kept m1 m2 →
      ∃ mem', assignPlain (.slot n) v s = .ok () ⟨mem', s.stk.set n w⟩ ∧ Inv ⟨mem', s.stk.set n w⟩ own ∧ Kept s.mem mem' := by
    rintro m2 ⟨r, he⟩ i2 k2
    obtain ⟨m3, e3, i3, k3⟩ := detach_tot (s := ⟨m2, s.stk.set n w⟩) i2.pop
    refine ⟨m3, ?_, i3, Oth.trans (Oth.trans k1 k2) k3⟩
    refine withVar_run' (stk1 := s.stk.set n w) (w := v) (mem1 := m2) ?_ (by simp) e3
    refine (bind_eq (readSlot (s := ⟨s.mem, s.stk ++ [v]⟩) (slot_append h))).trans ?_
    have : (share (.slot n) v >>= fun _ => dereference (.slot n) >>= fun _ => (pure () : M α Unit)) { s with stk := s.stk ++ [v] } = .ok () ⟨m2, s.stk.set n w ++ [v]⟩ := by
      rw [bind_eq e1, bind_eq he]
      rfl
    cases t with
    | ref b j => exact absurd trivial hr
    | _ => exact this
  cases hd with
  | self hv =>
    refine key m1 ⟨.slot n, ?_⟩ i1 (Oth.refl _ _)
    unfold dereference
    rw [bind_eq (readSlot (hs1 v))]
    cases v with
    | ref b j => exact absurd trivial hv
    | _ => rfl
  | @var b j k' n' cells' c' _ hb hk' hc' hw hwr =>
    have hb1 : Is m1 b k' n' cells' := hb.kept k1 id (i1.stk_live (hv0 b (by simp [V.ptr])))
    obtain ⟨e2, i2⟩ := write_slot (own' := own) i1 (hs1 _) (.arr b) (fun _ => rfl)
    simp only [set_append (List.getElem?_set_self hlt), List.set_set] at e2 i2
    have hwl : ∀ d ∈ w.ptr.toList, Live m1 d := fun d hd => i1.cell_live hb1 (List.mem_of_getElem? hc') (Cell.get_ptrs hw hd)
    obtain ⟨m3, e3, i3, k3, l3⟩ := attach_tot i2 hwl
    obtain ⟨m4, e4, i4, k4⟩ := share_slot (v := w) i3 (hs1 _) (t := .arr b) id (fun d hd => i3.own_live (List.mem_append_left _ hd))
    simp only [set_append (List.getElem?_set_self hlt), List.set_set] at e4 i4
    obtain ⟨m5, e5, i5, k5⟩ := detach_tot i4
    refine key m5 ⟨.cell b j, ?_⟩ i5 (Oth.trans (Oth.trans k3 k4) k5)
    unfold dereference
    rw [bind_eq (readSlot (hs1 _))]
    simp only
    rw [bind_eq (derefLoc_var hb1 hk')]
    simp only
    rw [if_neg (by simp), bind_eq e2]
    refine (bind_eq (read_place (q := false) (s := ⟨m1, s.stk.set n (.arr b) ++ [.ref b j]⟩) hb1 hc' hw)).trans ?_
    have : (attachV w >>= fun _ => share (.slot n) w >>= fun _ => detachV w >>= fun _ => (pure (.cell b j) : M α Loc)) ⟨m1, s.stk.set n (.arr b) ++ [.ref b j]⟩ =
        .ok (.cell b j) ⟨m5, s.stk.set n w ++ [.ref b j]⟩ := by
      rw [bind_eq e3, bind_eq e4, bind_eq e5]
      rfl
    cases w with
    | ref _ _ => exact absurd trivial hwr
    | _ => exact this
  | @num b j k' n' cells' x hb hk' hcd hc' =>
    obtain ⟨rc, g⟩ := hb.kept k1 id (i1.stk_live (hv0 b (by simp [V.ptr])))
    obtain ⟨e2, i2⟩ := write_slot (own' := b :: own) i1 (hs1 _) (.num k' x) (fun d => by simp [V.ptr, List.count_cons])
    simp only [set_append (List.getElem?_set_self hlt), List.set_set] at e2 i2
    obtain ⟨m3, e3, i3, k3⟩ := detach_tot (v := .arr b) (own := own) (s := ⟨m1, s.stk.set n (.num k' x) ++ [.ref b j]⟩) i2
    refine key m3 ⟨.slot n, ?_⟩ i3 k3
    unfold dereference
    rw [bind_eq (readSlot (hs1 _))]
    simp only
    rw [bind_eq (derefLoc_num g hk')]
    simp only
    rw [bind_eq (obj_eq g), bind_eq (rawAt_run g hc')]
    rw [if_neg hcd, bind_eq e2, bind_eq e3]
    rfl

/-- `x = e` for a variable that is no reference. -/
theorem assignVar_tot [Env α] {s : State α} {own : List Addr} {n : Nat} {t : V α} (h : s.stk[n]? = some t) (hr : ¬ t.IsRef) {e : Exp α} {v w : V α}
    {m1 : List (Option (Obj α))} (he : eval e s = .ok v ⟨m1, s.stk⟩) (hi : Inv ⟨m1, s.stk⟩ (v.ptr.toList ++ own)) (hd : Deno m1 v w) :
    ∃ mem', run (.assign n e) s = .ok () ⟨mem', s.stk.set n w⟩ ∧ Inv ⟨mem', s.stk.set n w⟩ own ∧ Kept m1 mem' := by
  obtain ⟨m2, e2, i2, k2⟩ := assignSlot_tot (s := ⟨m1, s.stk⟩) hi h hr hd
  refine ⟨m2, (bind_eq he).trans ?_, i2, k2⟩
  unfold assign
  refine (bind_eq (readSlot (s := ⟨m1, s.stk⟩) h)).trans ?_
  cases t with
  | ref b j => exact absurd trivial hr
  | _ => exact e2

/-- Evaluating an expression. -/
theorem given_tot [Env α] {s : State α} {own : List Addr} (hr : Reach s) (hi : Inv s own) {e : Exp α} (hu : Given s e) :
    ∃ mem' v w, eval e s = .ok v { s with mem := mem' } ∧ Inv { s with mem := mem' } (v.ptr.toList ++ own) ∧ Kept s.mem mem' ∧
      Deno mem' v w ∧ Yields s { s with mem := mem' } e w := by
  cases e with
  | nil => exact ⟨s.mem, .nil, .nil, rfl, by simpa [V.ptr] using hi, Oth.refl _ _, .self id, rfl⟩
  | num k x =>
    exact ⟨s.mem, .num k x, .num k x, newNum_scalar hu x s, by simpa [V.ptr] using hi, Oth.refl _ _, .self id, rfl⟩
  | str cs =>
    have hf : cs.length + 2 ≤ 2 ^ 30 := hu
    obtain ⟨ob, h1, h2, h3, h4⟩ := newStr_run cs s (by omega)
    have i1 := (eval_keep (lk := false) (Exp.str cs)).inv (own := own) hi h1
    refine ⟨_, _, .arr s.mem.length, h1, i1, ⟨by simp, fun b o' _ hb ho => ?_⟩, .self id, s.mem.length, ob, rfl, le_refl _, by simp,
      h3, h2.size, h2.elem⟩
    rw [List.getElem?_append_left hb] at ho
    exact ⟨o', ho, rfl, rfl, rfl⟩
  | name m =>
    obtain ⟨v, hv, hp⟩ := hu
    obtain ⟨m1, e1, i1, k1, -⟩ := attach_tot (v := v) hi (fun b hb => hi.stk_live (mem_stkPtrs hv hb))
    refine ⟨m1, v, v, ?_, i1, k1, .self (plain_iff.1 hp), hv⟩
    refine (bind_eq (readSlot hv)).trans ?_
    unfold copyV
    exact (bind_eq e1).trans rfl
  | elem m i =>
    obtain ⟨j, rfl, h⟩ := hu
    have hup : ∀ (b : Addr) (o : Obj α), s.stk[m]? = some (.arr b) → s.mem[b]? = some (some o) → j < o.size →
        ∃ mem', eval (.elem m j) s = .ok (.ref b j) { s with mem := mem' } ∧ Inv { s with mem := mem' } (b :: own) ∧ Is mem' b o.kind o.size o.cells ∧ Kept s.mem mem' := by
      intro b o hb ho hj
      obtain ⟨h1, h2, h3⟩ := upd_tot (own' := b :: own) (k := o.kind) (n := o.size) (cells := o.cells) (rc := o.rc) (rc' := o.rc + 1) hi ho (Nat.succ_pos _)
        (fun c => by simp only [List.count_cons, beq_iff_eq]; split <;> omega)
      exact ⟨_, index_in hb ho hj, h1, by simpa [upd] using h2, h3⟩
    rcases h with ⟨vs, hvs, hj⟩ | ⟨k, xs, hk, hxs, hj⟩
    · have hvs0 := hvs
      obtain ⟨b, o, h1, h2, h3, h4, h5⟩ := hvs
      obtain ⟨mem', e1, i1, g1, k1⟩ := hup b o h1 h2 (by rw [h4, List.length_map]; exact hj)
      have hc := h5 j (.var vs[j]) (by rw [List.getElem?_map, List.getElem?_eq_getElem hj]; rfl)
      exact ⟨mem', .ref b j, vs[j], e1, i1, k1, .var g1 (.inl h3) hc rfl (nice_clean hr h2 _ (List.mem_of_getElem? hc)),
        j, rfl, .inl ⟨vs, hvs0, List.getElem?_eq_getElem hj⟩⟩
    · have hxs0 := hxs
      obtain ⟨b, o, h1, h2, h3, h4, h5⟩ := hxs
      obtain ⟨mem', e1, i1, g1, k1⟩ := hup b o h1 h2 (by rw [h4]; exact hj)
      have hc := h5 j xs[j] (List.getElem?_eq_getElem hj)
      subst h3
      exact ⟨mem', .ref b j, .num o.kind xs[j], e1, i1, k1, .num g1 hk.1 hk.2 hc,
        j, rfl, .inr ⟨o.kind, xs, xs[j], hxs0, List.getElem?_eq_getElem hj, rfl⟩⟩
  | «at» _ _ => exact absurd hu id
  | top _ => exact absurd hu id
  | key _ _ => exact absurd hu id
  | atKey _ _ => exact absurd hu id
  | copy _ => exact absurd hu id
  | pop _ => exact absurd hu id
  | shift _ => exact absurd hu id
  | remove _ _ => exact absurd hu id
  | math _ _ _ => exact absurd hu id
  | mathTo _ _ _ _ => exact absurd hu id
  | text _ _ _ => exact absurd hu id
  | textTo _ _ _ _ => exact absurd hu id
  | arith _ _ _ _ => exact absurd hu id
  | arithTo _ _ _ _ _ => exact absurd hu id
  | move _ => exact absurd hu id

/-- `r = v` for a reference to an element of an array that holds vars. -/
theorem assignRef_tot [Env α] {s : State α} {own : List Addr} {v w : V α} (hi : Inv s (v.ptr.toList ++ own)) {r : Nat} {a : Addr} {i : Nat} (h : s.stk[r]? = some (.ref a i))
    {k : Kind} {n : Nat} {cells : List (Cell α)} (ha : Is s.mem a k n cells) (hk : Holds k) {c : Cell α} (hc : cells[i]? = some c) {t : V α} (ht : c.get false = some t)
    (hr : ¬ t.IsRef) (hd : Deno s.mem v w) (hne : v ≠ .ref a i) :
    ∃ mem', assign (.slot r) v s = .ok () ⟨mem', s.stk⟩ ∧ Inv ⟨mem', s.stk⟩ own ∧ Is mem' a k n (cells.set i (c.put false w)) ∧ Oth (· = a) s.mem mem' := by
  have has : a ∈ stkPtrs s.stk := mem_stkPtrs h (by simp [V.ptr])
  have up : ∀ {b}, b ∈ stkPtrs s.stk → b ∈ stkPtrs (s.stk ++ [v]) := fun hb => by rw [stkPtrs_append]; exact List.mem_append_left _ hb
  have i0 : Inv { s with stk := s.stk ++ [v] } own := hi.push
  have hv0 : ∀ b ∈ v.ptr.toList, b ∈ stkPtrs (s.stk ++ [v]) := fun b hb => by rw [stkPtrs_append]; exact List.mem_append_right _ hb
  obtain ⟨m1, e1, i1, k1, l1⟩ := attach_tot i0 (v := v) (fun b hb => i0.stk_live (hv0 b hb))
  have h1 : Is m1 a k n cells := ha.kept k1 id (l1 a ha.live)
  have hd1 : Deno m1 v w := hd.kept k1 (fun _ _ _ => id) (fun b hb => i1.stk_live (hv0 b hb))
  obtain ⟨m2, e2, i2, h2, k2⟩ := assignPlain_tot (q := false) i1 (up has) h1 hc ht hr hd1
    (by rintro b j rfl e; simp only [place, Bool.false_eq_true, if_false, Loc.cell.injEq] at e; exact hne (by rw [e.1, e.2]))
  obtain ⟨m3, e3, i3, k3⟩ := withVar_tot (s := s) (v := v) (w := v) (m1 := m2) (b := ())
    (f := fun _ => obj a >>= fun o => match o.kind with
      | .var | .pair => attachV v >>= fun _ => assignPlain (.cell a i) v
      | k => castV k v >>= fun x => setRaw a i x) (by
      obtain ⟨rc, g⟩ := ha
      refine (bind_eq (obj_eq (s := ⟨s.mem, s.stk ++ [v]⟩) g)).trans ?_
      rcases hk with rfl | rfl
      · exact (bind_eq e1).trans e2
      · exact (bind_eq e1).trans e2) i2
  refine ⟨m3, ?_, i3, h2.kept k3 id (i3.stk_live has), (Oth.trans k1.oth k2).trans k3.oth⟩
  unfold assign
  exact (bind_eq (readSlot h)).trans e3

/-- `r = x` for a reference to an element of an array of numbers. -/
theorem assignRef_num [Env α] {s : State α} {j : Kind} {x : α} {r : Nat} {a : Addr} {i : Nat} (h : s.stk[r]? = some (.ref a i)) {o : Obj α} (ha : s.mem[a]? = some (some o))
    (hk : IsNum o.kind) {y : Option α} (hc : o.cells[i]? = some (.raw y)) :
    assign (.slot r) (.num j x) s = .ok () (upd s a { o with cells := o.cells.set i (.raw (some (Env.conv j o.kind x))) }) := by
  unfold assign
  refine (bind_eq (readSlot h)).trans ?_
  refine withVar_run (w := .num j x) (mem1 := (upd s a { o with cells := o.cells.set i (.raw (some (Env.conv j o.kind x))) }).mem)
    (s1 := ⟨(upd s a { o with cells := o.cells.set i (.raw (some (Env.conv j o.kind x))) }).mem, s.stk ++ [.num j x]⟩) ?_ rfl (by rw [detach_none rfl]; rfl)
  refine (bind_eq (obj_eq (s := ⟨s.mem, s.stk ++ [.num j x]⟩) ha)).trans ?_
  have key : ∀ k, k = o.kind → (castV k (.num j x) >>= fun z => setRaw a i z) ⟨s.mem, s.stk ++ [.num j x]⟩ =
      .ok () ⟨(upd s a { o with cells := o.cells.set i (.raw (some (Env.conv j o.kind x))) }).mem, s.stk ++ [.num j x]⟩ := by
    rintro k rfl
    have : castV o.kind (.num j x) ⟨s.mem, s.stk ++ [.num j x]⟩ = .ok (Env.conv j o.kind x) ⟨s.mem, s.stk ++ [.num j x]⟩ := rfl
    rw [bind_eq this]
    unfold setRaw
    refine (bind_eq (obj_eq (s := ⟨s.mem, s.stk ++ [.num j x]⟩) ha)).trans ?_
    simp [hc, setObj, upd]
  cases hko : o.kind with
  | var => exact absurd hko hk.1
  | pair => exact absurd hko hk.2
  | _ => simpa [hko] using key _ hko.symm

end Libube.Mem

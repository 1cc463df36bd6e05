import Verif.Lemmas.MemVars
import Verif.Spec.MemVars

/-! # Statements about arrays of vars -/

namespace Libube.Mem

open MemSpec

theorem plain_iff {v : V α} : Plain v ↔ ¬ v.IsRef := by
  cases v <;> simp [Plain, V.IsRef]

theorem nice_clean [Env α] {s : State α} (hr : Reach s) {a : Addr} {o : Obj α} (h : s.mem[a]? = some (some o)) : ∀ c ∈ o.cells, c.Clean := by
  have hn := reach_nice hr a o h
  intro c hc
  obtain ⟨i, hi⟩ := List.getElem?_of_mem hc
  cases c with
  | raw _ => trivial
  | var v => exact fun hv => by cases hn.cell i v (.inl hi) hv
  | pair k v => exact ⟨fun hv => (by cases hn.key i k v hi hv), fun hv => (by cases hn.cell i v (.inr ⟨k, hi⟩) hv)⟩

theorem nice_room [Env α] {s : State α} (hr : Reach s) {a : Addr} {o : Obj α} (h : s.mem[a]? = some (some o)) (hf : o.size + 2 ≤ 2 ^ 30) :
    o.size ≤ o.cells.length := by
  have hn := (reach_nice hr a o h).fits
  unfold Obj.need at hn
  split at hn <;> omega

theorem va_of_vars [Env α] {s : State α} (hr : Reach s) {n : Nat} {vs : List (V α)} (h : Vars s n vs) :
    ∃ own a cells, VA s own n a vs cells := by
  obtain ⟨a, o, h1, h2, h3, h4, h5⟩ := h
  obtain ⟨own, hi⟩ := reach_inv hr
  refine ⟨own, a, o.cells, hi, h1, ⟨o.rc, ?_⟩, fun i v hv => h5 i (.var v) (by rw [List.getElem?_map, hv]; rfl), nice_clean hr h2⟩
  rw [h2, ← h3, show vs.length = o.size by rw [h4, List.length_map]]

theorem VA.vars {s : State α} {own : List Addr} {n a : Nat} {vs : List (V α)} {cells : List (Cell α)} (h : VA s own n a vs cells) :
    Vars s n vs := by
  obtain ⟨rc, g⟩ := h.is
  refine ⟨a, _, h.slot, g, rfl, by simp, fun i c hc => ?_⟩
  rw [List.getElem?_map] at hc
  cases hv : vs[i]? with
  | none => rw [hv] at hc; cases hc
  | some v => rw [hv] at hc; cases hc; exact h.elem i v hv

theorem VA.own {s : State α} {own own' : List Addr} {n a : Nat} {vs : List (V α)} {cells : List (Cell α)} (h : VA s own n a vs cells)
    {mem : List (Option (Obj α))} (hi : Inv ⟨mem, s.stk⟩ own') (hk : Kept s.mem mem) : VA ⟨mem, s.stk⟩ own' n a vs cells :=
  ⟨hi, h.slot, h.is.kept hk id (hi.stk_live h.stk), h.elem, h.clean⟩

theorem oth_same {s : State α} {mem : List (Option (Obj α))} {stk : List (V α)} {n a : Nat} (hs : s.stk[n]? = some (.arr a))
    (ha : Live s.mem a) (h : Oth (· = a) s.mem mem) : OthersSame s ⟨mem, stk⟩ n := by
  constructor
  · intro b o hb ho
    have hba : b ≠ a := fun e => hb (by rw [e]; exact hs)
    have hl := lt_of_alive ho
    cases hm : mem[b]? with
    | none => rw [List.getElem?_eq_none_iff] at hm; have := h.1; omega
    | some p =>
      cases p with
      | none => exact .inl rfl
      | some p =>
        obtain ⟨o2, e1, e2, e3, e4⟩ := h.2 b p hba hl hm
        rw [ho] at e1
        cases e1
        exact .inr ⟨p, rfl, e2, e3, e4⟩
  · intro b hb
    have hba : b ≠ a := by
      rintro rfl
      obtain ⟨o, ho⟩ := ha
      rw [hb] at ho
      cases ho
    have hl := (List.getElem?_eq_some_iff.1 hb).1
    show mem[b]? = _
    cases hm : mem[b]? with
    | none => rw [List.getElem?_eq_none_iff] at hm; have := h.1; omega
    | some p =>
      cases p with
      | none => rfl
      | some p =>
        obtain ⟨o2, e1, -⟩ := h.2 b p hba hl hm
        rw [hb] at e1
        cases e1

theorem same_trans {s s1 s2 : State α} {n : Nat} (h1 : OthersSame s s1 n) (h2 : OthersSame s1 s2 n) (hs : s1.stk = s.stk) : OthersSame s s2 n := by
  refine ⟨fun b o hb ho => ?_, fun b hb => h2.2 b (h1.2 b hb)⟩
  rcases h1.1 b o hb ho with h | ⟨o1, e1, e2, e3, e4⟩
  · exact .inl (h2.2 b h)
  · rcases h2.1 b o1 (by rw [hs]; exact hb) e1 with h | ⟨o2, f1, f2, f3, f4⟩
    · exact .inl h
    · exact .inr ⟨o2, f1, f2.trans e2, f3.trans e3, f4.trans e4⟩

/-- Evaluating a value. -/
theorem usable_tot [Env α] {s : State α} {own : List Addr} (hr : Reach s) (hi : Inv s own) {n a : Nat} (hs : s.stk[n]? = some (.arr a))
    {e : Exp α} (hu : Usable s n e) :
    ∃ mem' v w, eval e s = .ok v { s with mem := mem' } ∧ Inv { s with mem := mem' } (v.ptr.toList ++ own) ∧ Kept s.mem mem' ∧
      Deno mem' v w ∧ (∀ j, v ≠ .ref a j) ∧ Yields s { s with mem := mem' } e w := by
  cases e with
  | nil => exact ⟨s.mem, .nil, .nil, rfl, by simpa [V.ptr] using hi, Oth.refl _ _, .self id, fun j h => (by cases h), rfl⟩
  | num k x =>
    exact ⟨s.mem, .num k x, .num k x, newNum_scalar hu x s, by simpa [V.ptr] using hi, Oth.refl _ _, .self id, fun j h => (by cases h), rfl⟩
  | str cs =>
    have hf : cs.length + 2 ≤ 2 ^ 30 := hu
    obtain ⟨ob, h1, h2, h3, h4⟩ := newStr_run cs s (by omega)
    have i1 := (eval_keep (lk := false) (Exp.str cs)).inv (own := own) hi h1
    refine ⟨_, _, .arr s.mem.length, h1, i1, ⟨by simp, fun b o' _ hb ho => ?_⟩, .self id, fun j h => (by cases h), s.mem.length, ob, rfl, le_refl _, by simp,
      h3, h2.size, h2.elem⟩
    rw [List.getElem?_append_left hb] at ho
    exact ⟨o', ho, rfl, rfl, rfl⟩
  | name m =>
    obtain ⟨v, hv, hp⟩ := hu
    obtain ⟨m1, e1, i1, k1, -⟩ := attach_tot (v := v) hi (fun b hb => hi.stk_live (mem_stkPtrs hv hb))
    refine ⟨m1, v, v, ?_, i1, k1, .self (plain_iff.1 hp), fun j => hp a j, hv⟩
    refine (bind_eq (readSlot hv)).trans ?_
    unfold copyV
    exact (bind_eq e1).trans rfl
  | elem m i =>
    obtain ⟨⟨a', b, hab, ha', hb⟩, j, rfl, h⟩ := hu
    rw [hs] at ha'
    cases ha'
    have hup : ∀ (o : Obj α), s.mem[b]? = some (some o) → j < o.size →
        ∃ mem', eval (.elem m j) s = .ok (.ref b j) { s with mem := mem' } ∧ Inv { s with mem := mem' } (b :: own) ∧ Is mem' b o.kind o.size o.cells ∧ Kept s.mem mem' := by
      intro o ho hj
      obtain ⟨h1, h2, h3⟩ := upd_tot (own' := b :: own) (k := o.kind) (n := o.size) (cells := o.cells) (rc := o.rc) (rc' := o.rc + 1) hi ho (Nat.succ_pos _)
        (fun c => by simp only [List.count_cons, beq_iff_eq]; split <;> omega)
      exact ⟨_, index_in hb ho hj, h1, by simpa [upd] using h2, h3⟩
    rcases h with ⟨vs, hvs, hj⟩ | ⟨k, xs, hk, hxs, hj⟩
    · have hvs0 := hvs
      obtain ⟨b', o, h1, h2, h3, h4, h5⟩ := hvs
      rw [hb] at h1
      cases h1
      obtain ⟨mem', e1, i1, g1, k1⟩ := hup o h2 (by rw [h4, List.length_map]; exact hj)
      have hc := h5 j (.var vs[j]) (by rw [List.getElem?_map, List.getElem?_eq_getElem hj]; rfl)
      refine ⟨mem', .ref b j, vs[j], e1, i1, k1, .var g1 (.inl h3) hc rfl (nice_clean hr h2 _ (List.mem_of_getElem? hc)),
        fun q hq => hab (by cases hq; rfl), j, rfl, .inl ⟨vs, hvs0, List.getElem?_eq_getElem hj⟩⟩
    · have hxs0 := hxs
      obtain ⟨b', o, h1, h2, h3, h4, h5⟩ := hxs
      rw [hb] at h1
      cases h1
      obtain ⟨mem', e1, i1, g1, k1⟩ := hup o h2 (by rw [h4]; exact hj)
      have hc := h5 j xs[j] (List.getElem?_eq_getElem hj)
      subst h3
      exact ⟨mem', .ref b j, .num o.kind xs[j], e1, i1, k1, .num g1 hk.1 hk.2 hc,
        fun q hq => hab (by cases hq; rfl), j, rfl, .inr ⟨o.kind, xs, xs[j], hxs0, List.getElem?_eq_getElem hj, rfl⟩⟩
  | «at» _ _ => exact absurd hu id
  | top _ => exact absurd hu id
  | key _ _ => exact absurd hu id
  | atKey _ _ => exact absurd hu id
  | copy _ => exact absurd hu id
  | pop _ => exact absurd hu id
  | shift _ => exact absurd hu id
  | remove _ _ => exact absurd hu id
  | math _ _ _ => exact absurd hu id
  | mathTo _ _ _ _ => exact absurd hu id
  | text _ _ _ => exact absurd hu id
  | textTo _ _ _ _ => exact absurd hu id
  | arith _ _ _ _ => exact absurd hu id
  | arithTo _ _ _ _ _ => exact absurd hu id
  | move _ => exact absurd hu id

theorem yields_kept {s : State α} {m1 m2 : List (Option (Obj α))} {stk stk' : List (V α)} {e : Exp α} {w : V α} {a : Nat} (h : Yields s ⟨m1, stk⟩ e w)
    (hk : Oth (· = a) m1 m2) (ha : a < s.mem.length) (hl : ∀ b, w = .arr b → Live m2 b) : Yields s ⟨m2, stk'⟩ e w := by
  cases e with
  | str cs =>
    obtain ⟨b, o, h1, h2, h3, h4, h5, h6⟩ := h
    obtain ⟨rc, g⟩ := Is.kept (k := o.kind) (n := o.size) (cells := o.cells) ⟨o.rc, h3⟩ hk (by intro h; omega) (hl b h1)
    exact ⟨b, _, h1, h2, g, h4, h5, h6⟩
  | _ => exact h

/-- Statements that put a value into an array of vars. -/
theorem step_tot [Env α] {s : State α} (hr : Reach s) {n : Nat} {vs : List (V α)} (h : Vars s n vs) {e : Exp α} (hu : Usable s n e)
    {f : V α → M α Unit} {g : V α → List (V α)} (hg : ∀ w, w ∈ g w)
    (hf : ∀ own a cells mem v w, VA ⟨mem, s.stk⟩ (v.ptr.toList ++ own) n a vs cells → Deno mem v w → (∀ j, v ≠ .ref a j) →
      ∃ mem' cells' own', f v ⟨mem, s.stk⟩ = .ok () ⟨mem', s.stk⟩ ∧ VA ⟨mem', s.stk⟩ own' n a (g w) cells' ∧ Oth (· = a) mem mem') :
    ∃ s' w, (eval e >>= f) s = .ok () s' ∧ Yields s s' e w ∧ Vars s' n (g w) ∧ s'.stk = s.stk ∧ OthersSame s s' n := by
  obtain ⟨own, a, cells, hva⟩ := va_of_vars hr h
  obtain ⟨m1, v, w, e1, i1, k1, d1, n1, y1⟩ := usable_tot hr hva.inv hva.slot hu
  obtain ⟨m2, cells2, own2, e2, hva2, k2⟩ := hf own a cells m1 v w (hva.own i1 k1) d1 n1
  refine ⟨_, w, (bind_eq e1).trans e2, yields_kept y1 k2 (lt_of_alive hva.is.choose_spec) ?_, hva2.vars, rfl, oth_same hva.slot hva.is.live (k1.oth.trans k2)⟩
  intro b hb
  obtain ⟨i, hi⟩ := List.getElem?_of_mem (hg w)
  exact hva2.inv.cell_live hva2.is (List.mem_of_getElem? (hva2.elem i w hi)) (by simp [Cell.ptrs, hb, V.ptr])

/-- Statements that only take elements away: the var returned is destroyed. -/
theorem drop_tot [Env α] {s : State α} {own : List Addr} {n a : Nat} {vs vs' : List (V α)} {cells cells' : List (Cell α)} (h : VA s own n a vs cells)
    {e : Exp α} {r : V α} {m1 : List (Option (Obj α))} (he : eval e s = .ok r { s with mem := m1 }) (h1 : VA { s with mem := m1 } (r.ptr.toList ++ own) n a vs' cells')
    (k1 : Oth (· = a) s.mem m1) :
    ∃ s', run (.eval e) s = .ok () s' ∧ Vars s' n vs' ∧ s'.stk = s.stk ∧ OthersSame s s' n := by
  obtain ⟨m2, e2, i2, k2⟩ := detach_tot h1.inv
  have h2 := VA.own (s := { s with mem := m1 }) h1 i2 k2
  exact ⟨_, (bind_eq he).trans e2, h2.vars, rfl, oth_same h.slot h.is.live (k1.trans k2.oth)⟩

/-- Elements of an array something refers to exist. -/
theorem vars_live [Env α] {s : State α} (hr : Reach s) {n b : Nat} {vs : List (V α)} (h : Vars s n vs) (hb : .arr b ∈ vs) : Live s.mem b := by
  obtain ⟨own, a, cells, hva⟩ := va_of_vars hr h
  obtain ⟨i, hi⟩ := List.getElem?_of_mem hb
  exact hva.inv.cell_live hva.is (List.mem_of_getElem? (hva.elem i _ hi)) (by simp [Cell.ptrs, V.ptr])

theorem shown_keep [Env α] {s s' : State α} (hr' : Reach s') {n : Nat} {vs vs' : List (V α)} (h : Vars s n vs) (h' : Vars s' n vs')
    (hs : s'.stk = s.stk) (ho : OthersSame s s' n) {t : Item α} {v : V α} (hv : v ∈ vs') (ht : t.Shown s v) : t.Shown s' v := by
  cases t with
  | str cs =>
    obtain ⟨b, o, rfl, h1, h2, h3, h4⟩ := ht
    obtain ⟨o1, ho1⟩ := vars_live hr' h' hv
    have hba : s.stk[n]? ≠ some (.arr b) := by
      intro hb
      obtain ⟨a, p, e1, e2, e3, -⟩ := h
      rw [hb] at e1
      cases e1
      rw [h1] at e2
      cases e2
      rw [h2] at e3
      cases e3
    rcases ho.1 b o hba h1 with hh | ⟨o2, f1, f2, f3, f4⟩
    · rw [ho1] at hh; cases hh
    · exact ⟨b, o2, rfl, f1, f2.trans h2, f3.trans h3, fun i x hx => by rw [f4]; exact h4 i x hx⟩
  | name m =>
    show s'.stk[m]? = _
    rw [hs]
    exact ht
  | _ => exact ht

theorem shown_new {s s' : State α} {t : Item α} (hw : t.Writable s) (hs : s'.stk = s.stk) {w : V α} (h : Yields s s' t.exp w) : t.Shown s' w := by
  cases t with
  | str cs =>
    obtain ⟨b, o, h1, -, h2, h3⟩ := h
    exact ⟨b, o, h1, h2, h3⟩
  | name m =>
    show s'.stk[m]? = _
    rw [hs]
    exact h
  | val v => exact absurd hw id
  | _ => exact h

theorem writable_usable {s : State α} {t : Item α} (h : t.Writable s) (n : Nat) : Usable s n t.exp := by
  cases t with
  | val v => exact absurd h id
  | _ => exact h

/-- Items and vars together. -/
theorem items_pairs {s : State α} {n : Nat} {its : List (Item α)} : Items s n its ↔
    ∃ ps : List (Item α × V α), ps.map Prod.fst = its ∧ Vars s n (ps.map Prod.snd) ∧ ∀ p ∈ ps, p.1.Shown s p.2 := by
  constructor
  · rintro ⟨vs, h1, h2, h3⟩
    refine ⟨its.zip vs, by rw [List.map_fst_zip (by omega)], by rw [List.map_snd_zip (by omega)]; exact h1, fun p hp => ?_⟩
    obtain ⟨i, hi⟩ := List.getElem?_of_mem hp
    rw [List.getElem?_zip_eq_some] at hi
    exact h3 i _ _ hi.1 hi.2
  · rintro ⟨ps, rfl, h2, h3⟩
    refine ⟨_, h2, by simp, fun i t v ht hv => ?_⟩
    rw [List.getElem?_map] at ht hv
    cases hp : ps[i]? with
    | none => rw [hp] at ht; cases ht
    | some p =>
      rw [hp] at ht hv
      cases ht
      cases hv
      exact h3 p (List.mem_of_getElem? hp)

/-- `x[i]` for an element of an array of vars. -/
theorem elem_own [Env α] {s : State α} {own : List Addr} {n a i : Nat} {vs : List (V α)} {cells : List (Cell α)} {u : V α} (h : VA s own n a vs cells)
    (hu : vs[i]? = some u) : ∃ mem', eval (.elem n i) s = .ok (.ref a i) { s with mem := mem' } ∧
      VA { s with mem := mem' } ((V.ref a i : V α).ptr.toList ++ own) n a vs cells ∧ Kept s.mem mem' ∧ Deno mem' (.ref a i) u := by
  obtain ⟨rc, g⟩ := h.is
  obtain ⟨h1, h2, h3⟩ := upd_tot (own' := a :: own) (rc' := rc + 1) h.inv g (Nat.succ_pos _)
    (fun c => by simp only [List.count_cons, beq_iff_eq]; split <;> omega)
  have hc := h.elem i u hu
  exact ⟨_, index_in h.slot g (List.getElem?_eq_some_iff.1 hu).1, ⟨h1, h.slot, h2, h.elem, h.clean⟩, h3,
    .var h2 (.inl rfl) hc rfl (h.clean _ (List.mem_of_getElem? hc))⟩

/-- What `remove` needs. -/
theorem copyable_can [Env α] {s : State α} (hr : Reach s) {u : V α} (h : Copyable s u) : CanCopy s.mem u := by
  intro b hb
  obtain ⟨o, h1, h2, h3, h4⟩ := h b hb
  exact ⟨o.kind, o.size, o.cells, ⟨o.rc, h1⟩, nice_room hr h1 h4, by omega, h2, h3⟩

end Libube.Mem

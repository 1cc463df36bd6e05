import Verif.Lemmas.MemVarOps
import Verif.Props.MemShare

/-! # Arrays of vars (C39–C41, C49) -/

namespace Libube.MemProps

open Mem MemSpec

variable {α : Type}

attribute [local instance] intEnv

/-! ## One operation -/

/-- `x.push(e)`: the value becomes the last element; nothing else changes. -/
theorem var_push [Env α] {s : State α} (hr : Reach s) {n : Nat} {vs : List (V α)} (h : Vars s n vs) {e : Exp α} (hu : Usable s n e)
    (hf : Fits vs) :
    ∃ s' w, run (.push n e) s = .ok () s' ∧ Yields s s' e w ∧ Vars s' n (vs ++ [w]) ∧ s'.stk = s.stk ∧ OthersSame s s' n :=
  step_tot hr h hu (fun w => by simp) fun own a cells mem v w hva hd hn => by
    have hf : vs.length + 2 ≤ 2 ^ 30 := hf
    obtain ⟨m, c, h1, h2, h3⟩ := push_va hva (by omega) hd (fun j hj => absurd hj (hn j))
    exact ⟨m, c, own, h1, h2, h3⟩

/-- `x.unshift(e)`: the value becomes the first element; nothing else changes. -/
theorem var_unshift [Env α] {s : State α} (hr : Reach s) {n : Nat} {vs : List (V α)} (h : Vars s n vs) {e : Exp α} (hu : Usable s n e)
    (hf : Fits vs) :
    ∃ s' w, run (.unshift n e) s = .ok () s' ∧ Yields s s' e w ∧ Vars s' n (w :: vs) ∧ s'.stk = s.stk ∧ OthersSame s s' n :=
  step_tot hr h hu (fun w => by simp) fun own a cells mem v w hva hd hn => by
    have hf : vs.length + 2 ≤ 2 ^ 30 := hf
    obtain ⟨m, c, own', h1, h2, h3⟩ := unshift_va hva (by omega) hd hn
    exact ⟨m, c, own', h1, h2, h3⟩

/-- `x.insert(e, p)`: the value becomes element `p`, the later ones move up; nothing else changes. -/
theorem var_insert [Env α] {s : State α} (hr : Reach s) {n p : Nat} {vs : List (V α)} (h : Vars s n vs) {e : Exp α} (hu : Usable s n e)
    (hp : p ≤ vs.length) (hf : Fits vs) :
    ∃ s' w, run (.insert n e p) s = .ok () s' ∧ Yields s s' e w ∧ Vars s' n (vs.take p ++ w :: vs.drop p) ∧ s'.stk = s.stk ∧
      OthersSame s s' n :=
  step_tot hr h hu (fun w => by simp) fun own a cells mem v w hva hd hn => by
    have hf : vs.length + 2 ≤ 2 ^ 30 := hf
    obtain ⟨m, c, h1, h2, h3⟩ := insert_va hva hp (by omega) hd hn
    exact ⟨m, c, own, h1, h2, h3⟩

/-- `x.append(e)`: as `push`, unlike for an array of numbers. -/
theorem var_append [Env α] {s : State α} (hr : Reach s) {n : Nat} {vs : List (V α)} (h : Vars s n vs) {e : Exp α} (hu : Usable s n e)
    (hf : Fits vs) :
    ∃ s' w, run (.appendVar n e) s = .ok () s' ∧ Yields s s' e w ∧ Vars s' n (vs ++ [w]) ∧ s'.stk = s.stk ∧ OthersSame s s' n :=
  step_tot hr h hu (fun w => by simp) fun own a cells mem v w hva hd hn => by
    have hf : vs.length + 2 ≤ 2 ^ 30 := hf
    obtain ⟨m, c, h1, h2, h3⟩ := insert_va hva (Nat.le_refl _) (by omega) hd hn
    obtain ⟨rc, g⟩ := hva.is
    rw [List.take_length, List.drop_length] at h2
    refine ⟨m, c, own, ?_, h2, h3⟩
    rw [bind_eq (readSlot hva.slot), bind_eq (sizeV_arr g)]
    exact h1

/-- `x.presize(m)`, larger or smaller than the array, changes nothing. -/
theorem var_presize [Env α] {s : State α} (hr : Reach s) {n m : Nat} {vs : List (V α)} (h : Vars s n vs) (hm : m + 2 ≤ 2 ^ 30) (hf : Fits vs) :
    ∃ s', run (.presize n m) s = .ok () s' ∧ Vars s' n vs ∧ s'.stk = s.stk ∧ OthersSame s s' n := by
  have hf : vs.length + 2 ≤ 2 ^ 30 := hf
  obtain ⟨own, a, cells, hva⟩ := va_of_vars hr h
  obtain ⟨m1, c1, h1, h2, h4⟩ := presize_va hva (m := m) (by omega) (by omega)
  exact ⟨_, h1, h2.vars, rfl, oth_same hva.slot hva.is.live h4⟩

/-- C49: `x[i] = e` replaces element `i`; nothing else changes. -/
theorem var_set_partial [Env α] {s : State α} (hr : Reach s) {n i : Nat} {vs : List (V α)} (h : Vars s n vs) {e : Exp α} (hu : Usable s n e)
    (hi : i < vs.length) (hf : Fits vs) :
    ∃ s' w, run (.setElem n i e) s = .ok () s' ∧ Yields s s' e w ∧ Vars s' n (vs.set i w) ∧ s'.stk = s.stk ∧ OthersSame s s' n :=
  step_tot hr h hu (fun w => List.mem_of_getElem? (i := i) (by rw [List.getElem?_set_self hi])) fun own a cells mem v w hva hd hn => by
    have hf : vs.length + 2 ≤ 2 ^ 30 := hf
    obtain ⟨m, c, h1, h2, h3⟩ := setIndex_va hva hi (by omega) hd (fun j hj => absurd hj (hn j))
    exact ⟨m, c, own, h1, h2, h3⟩

/-- `x.resize(m)` to a smaller size leaves the first `m` elements; nothing else changes. -/
theorem var_truncate [Env α] {s : State α} (hr : Reach s) {n m : Nat} {vs : List (V α)} (h : Vars s n vs) (hm : m ≤ vs.length) (hf : Fits vs) :
    ∃ s', run (.resize n m) s = .ok () s' ∧ Vars s' n (vs.take m) ∧ s'.stk = s.stk ∧ OthersSame s s' n := by
  have hf : vs.length + 2 ≤ 2 ^ 30 := hf
  obtain ⟨own, a, cells, hva⟩ := va_of_vars hr h
  obtain ⟨m1, c1, h1, h2, -, h4⟩ := truncate_va hva hm (by omega)
  exact ⟨_, h1, h2.vars, rfl, oth_same hva.slot hva.is.live h4⟩

/-- C40: `var y = x.pop()` removes the last element, and `y` denotes it. -/
theorem var_pop_partial [Env α] {s : State α} (hr : Reach s) {n : Nat} {vs : List (V α)} {u : V α} (h : Vars s n (vs ++ [u])) (hf : Fits vs) :
    ∃ s', run (.decl (.pop n)) s = .ok () s' ∧ Vars s' n vs ∧ Denotes s' s.stk.length u ∧ OthersSame s s' n := by
  have hf : vs.length + 2 ≤ 2 ^ 30 := hf
  obtain ⟨own, a, cells, hva⟩ := va_of_vars hr h
  obtain ⟨m1, c1, h1, h2, h3, h4⟩ := pop_va hva (by omega)
  have hv := VA.vars (VA.push_stk (v := .ref a vs.length) h2)
  obtain ⟨rc, g⟩ := h2.is
  exact ⟨⟨m1, s.stk ++ [.ref a vs.length]⟩, (bind_eq (m := eval (.pop n)) h1).trans rfl, hv, .inr ⟨a, vs.length, _, by simp, g, rfl, h3⟩,
    oth_same hva.slot hva.is.live h4⟩

/-- `var y = x.shift()` removes the first element, and `y` is it, as a var of its own. -/
theorem var_shift_partial [Env α] {s : State α} (hr : Reach s) {n : Nat} {vs : List (V α)} {u : V α} (h : Vars s n (u :: vs)) (hf : Fits vs) :
    ∃ s', run (.decl (.shift n)) s = .ok () s' ∧ Vars s' n vs ∧ s'.stk = s.stk ++ [u] ∧ Plain u ∧ OthersSame s s' n := by
  have hf : vs.length + 2 ≤ 2 ^ 30 := hf
  obtain ⟨own, a, cells, hva⟩ := va_of_vars hr h
  obtain ⟨m1, c1, h1, h2, h3⟩ := shift_va hva (by omega)
  have hv := VA.vars (VA.push_stk h2)
  exact ⟨⟨m1, s.stk ++ [u]⟩, (bind_eq (m := eval (.shift n)) h1).trans rfl, hv, rfl,
    plain_iff.2 (hva.clean _ (List.mem_of_getElem? (hva.elem 0 u rfl))), oth_same hva.slot hva.is.live h3⟩

/-- `x.push(x[i])` works as well. -/
theorem var_push_own [Env α] {s : State α} (hr : Reach s) {n i : Nat} {vs : List (V α)} {u : V α} (h : Vars s n vs) (hu : vs[i]? = some u)
    (hf : Fits vs) : ∃ s', run (.push n (.elem n i)) s = .ok () s' ∧ Vars s' n (vs ++ [u]) ∧ s'.stk = s.stk ∧ OthersSame s s' n := by
  have hf : vs.length + 2 ≤ 2 ^ 30 := hf
  obtain ⟨own, a, cells, hva⟩ := va_of_vars hr h
  obtain ⟨m1, e1, h1, k1, d1⟩ := elem_own hva hu
  obtain ⟨m2, c, e2, h2, k2⟩ := push_va h1 (by omega) d1 (fun j hj => by cases hj; exact (List.getElem?_eq_some_iff.1 hu).1)
  exact ⟨_, (bind_eq e1).trans e2, h2.vars, rfl, oth_same hva.slot hva.is.live (k1.oth.trans k2)⟩

/-- C49: `x[i] = x[j]` for two different elements. -/
theorem var_set_own [Env α] {s : State α} (hr : Reach s) {n i j : Nat} {vs : List (V α)} {u : V α} (h : Vars s n vs) (hu : vs[j]? = some u)
    (hi : i < vs.length) (hij : i ≠ j) (hf : Fits vs) :
    ∃ s', run (.setElem n i (.elem n j)) s = .ok () s' ∧ Vars s' n (vs.set i u) ∧ s'.stk = s.stk ∧ OthersSame s s' n := by
  have hf : vs.length + 2 ≤ 2 ^ 30 := hf
  obtain ⟨own, a, cells, hva⟩ := va_of_vars hr h
  obtain ⟨m1, e1, h1, k1, d1⟩ := elem_own hva hu
  obtain ⟨m2, c, e2, h2, k2⟩ := setIndex_va h1 hi (by omega) d1 (fun q hq => by cases hq; exact hij.symm)
  exact ⟨_, (bind_eq e1).trans e2, h2.vars, rfl, oth_same hva.slot hva.is.live (k1.oth.trans k2)⟩

/-- C41: `var y = x.remove(i)` where element `i` is an array (or string): `y` is a new array with the same elements, and
    `x` loses element `i`.  For elements that can be copied. -/
theorem var_remove_array_partial [Env α] {s : State α} (hr : Reach s) {n i b : Nat} {vs : List (V α)} {o : Obj α} (h : Vars s n vs)
    (hu : vs[i]? = some (.arr b)) (ho : s.mem[b]? = some (some o)) (hc : Copyable s (.arr b)) (hf : Fits vs) :
    ∃ s', run (.decl (.remove n i)) s = .ok () s' ∧ Vars s' n (vs.eraseIdx i) ∧ Elems s' s.stk.length o.kind (o.cells.take o.size) ∧
      OthersSame s s' n := by
  have hf : vs.length + 2 ≤ 2 ^ 30 := hf
  obtain ⟨own, a, cells, hva⟩ := va_of_vars hr h
  obtain ⟨m1, c1, r, e1, h1, k1, h2, -⟩ := remove_va hva hu (by omega) (copyable_can hr hc)
  rcases h2 with ⟨-, h2⟩ | ⟨b', k, m, cs, rest, h2, rfl, ⟨rc, h3⟩, rc', h4⟩
  · exact absurd rfl (h2 b)
  cases h2
  rw [ho] at h3
  cases h3
  have hv := VA.vars (VA.push_stk h1)
  obtain ⟨o', p1, -, -, p4⟩ := hc b rfl
  rw [ho] at p1
  cases p1
  have hroom := nice_room hr ho p4
  refine ⟨⟨m1, s.stk ++ [.arr s.mem.length]⟩, (bind_eq (m := eval (.remove n i)) e1).trans rfl, hv, ⟨s.mem.length, _, by simp, h4, rfl, ?_, ?_⟩,
    oth_same hva.slot hva.is.live k1⟩
  · simp only [List.length_take] at hroom ⊢; omega
  · intro j c hj
    have := (List.getElem?_eq_some_iff.1 hj).1
    exact (List.getElem?_append_left this).trans hj

/-- C41: `var y = x.remove(i)` where element `i` is nil or a number: `x` loses element `i`, but `y` refers to the
    place, and so denotes the next element if there is one. -/
theorem var_remove_partial [Env α] {s : State α} (hr : Reach s) {n i : Nat} {vs : List (V α)} {u : V α} (h : Vars s n vs)
    (hu : vs[i]? = some u) (hn : ∀ b, u ≠ .arr b) (hf : Fits vs) :
    ∃ s', run (.decl (.remove n i)) s = .ok () s' ∧ Vars s' n (vs.eraseIdx i) ∧ OthersSame s s' n ∧
      (i + 1 = vs.length → Denotes s' s.stk.length u) ∧ ∀ w, vs[i + 1]? = some w → Denotes s' s.stk.length w := by
  have hf : vs.length + 2 ≤ 2 ^ 30 := hf
  obtain ⟨own, a, cells, hva⟩ := va_of_vars hr h
  obtain ⟨m1, c1, r, e1, h1, k1, h2, h3⟩ := remove_va hva hu (by omega) (fun b hb => absurd hb (hn b))
  rcases h2 with ⟨rfl, -⟩ | ⟨b', k, m, cs, rest, h2, -⟩
  swap
  · exact absurd h2 (hn b')
  have hv := VA.vars (VA.push_stk h1)
  obtain ⟨rc, g⟩ := h1.is
  refine ⟨⟨m1, s.stk ++ [.ref a i]⟩, (bind_eq (m := eval (.remove n i)) e1).trans rfl, hv, oth_same hva.slot hva.is.live k1,
    fun hl => .inr ⟨a, i, _, by simp, g, rfl, h3 hl⟩, fun w hw => .inr ⟨a, i, _, by simp, g, rfl, ?_⟩⟩
  exact h1.elem i w (by rw [List.getElem?_eraseIdx, if_neg (by omega)]; exact hw)

/-- C49: `x[i] = e` with `i` beyond the end makes the size `i + 1`; element `i` is the value and the elements there
    were stay.  (For those in between see `resize_shows_old`.) -/
theorem var_set_grows_partial [Env α] {s : State α} (hr : Reach s) {n i : Nat} {vs : List (V α)} (h : Vars s n vs) {e : Exp α} (hu : Usable s n e)
    (hi : vs.length ≤ i) (hf : Fits vs) (hb : i + 1 ≤ 2 ^ 30) :
    ∃ s' vs' w, run (.setElem n i e) s = .ok () s' ∧ Yields s s' e w ∧ Vars s' n (vs ++ vs' ++ [w]) ∧ vs.length + vs'.length = i ∧
      s'.stk = s.stk ∧ OthersSame s s' n := by
  have hf : vs.length + 2 ≤ 2 ^ 30 := hf
  obtain ⟨own, a, cells, hva⟩ := va_of_vars hr h
  obtain ⟨m1, v, w, e1, i1, k1, d1, n1, y1⟩ := usable_tot hr hva.inv hva.slot hu
  have h1 := hva.own i1 k1
  obtain ⟨m2, d, c, e2, i2, hc, h2, l2, k2⟩ := setIndex_tot (i := i) (s := { s with mem := m1 }) h1.inv h1.slot h1.is (.inl rfl) h1.le hb h1.clean d1
    (fun j hj => absurd hj (n1 j))
  rw [show max vs.length (i + 1) = i + 1 by omega] at h2 l2
  -- all places are vars
  have hty : ∀ c ∈ cells ++ List.replicate d (freshCell .var), ∃ u, c = .var u := by
    intro c hc
    rcases List.mem_append.1 hc with h | h
    · obtain ⟨rc, g⟩ := h1.is
      have := InvM.typed h1.inv a _ g c h
      cases c with
      | raw y => exact absurd rfl this.1
      | var u => exact ⟨u, rfl⟩
      | pair k u => cases this
    · exact ⟨.nil, List.eq_of_mem_replicate h⟩
  obtain ⟨us, hus⟩ : ∃ us : List (V α), cells ++ List.replicate d (freshCell .var) = us.map .var := by
    clear l2 hc h2
    generalize cells ++ List.replicate d (freshCell .var) = l at hty
    induction l with
    | nil => exact ⟨[], rfl⟩
    | cons c l ih =>
      obtain ⟨us, h⟩ := ih (fun c hc => hty c (List.mem_cons_of_mem _ hc))
      obtain ⟨u, hu⟩ := hty c List.mem_cons_self
      exact ⟨u :: us, by rw [List.map_cons, ← h, ← hu]⟩
  have hlen : us.length = cells.length + d := by
    have := congrArg List.length hus
    simpa using this.symm
  have hle := h1.le
  rw [hus] at h2 hc
  obtain ⟨uc, rfl⟩ : ∃ u, c = .var u := hty c (by rw [hus]; exact List.mem_of_getElem? hc)
  have hcl : ∀ c ∈ (us.map Cell.var).set i (.var w), c.Clean := by
    rw [← hus]
    exact set_clean (app_clean h1.clean d .var) (show Cell.Clean (.var w) from d1.clean)
  have hvs : us.take vs.length = vs := by
    apply List.ext_getElem?
    intro j
    rw [List.getElem?_take]
    split
    · rename_i hj
      have h3 := h1.elem j vs[j] (List.getElem?_eq_getElem hj)
      have h4 : (us.map Cell.var)[j]? = some (.var vs[j]) := by
        rw [← hus, List.getElem?_append_left (by omega)]; exact h3
      rw [List.getElem?_map] at h4
      cases hu : us[j]? with
      | none => rw [hu] at h4; cases h4
      | some u => rw [hu] at h4; cases h4; rw [List.getElem?_eq_getElem hj]
    · rw [List.getElem?_eq_none (by omega)]
  have hsplit : vs ++ (us.take i).drop vs.length = us.take i := by
    have h3 : (us.take i).take vs.length = vs := by rw [List.take_take, Nat.min_eq_left hi]; exact hvs
    have h4 := List.take_append_drop vs.length (us.take i)
    rw [h3] at h4
    exact h4
  have hdl : ((us.take i).drop vs.length).length = i - vs.length := by simp; omega
  have hva2 : VA ⟨m2, s.stk⟩ own n a (vs ++ (us.take i).drop vs.length ++ [w]) ((us.map Cell.var).set i (.var w)) := by
    refine ⟨i2, h1.slot, ?_, ?_, hcl⟩
    · rw [show (vs ++ (us.take i).drop vs.length ++ [w]).length = i + 1 by simp; omega]
      exact h2
    · intro j u hu
      rw [hsplit] at hu
      by_cases hj : j < i
      · rw [List.getElem?_append_left (by simp; omega), List.getElem?_take, if_pos hj] at hu
        rw [List.getElem?_set_ne (by omega), List.getElem?_map, hu]
        rfl
      · have := (List.getElem?_eq_some_iff.1 hu).1
        simp only [List.length_append, List.length_take, List.length_singleton] at this
        have hji : j = i := by omega
        subst hji
        rw [List.getElem?_append_right (by simp), show j - (us.take j).length = 0 by simp; omega] at hu
        cases hu
        rw [List.getElem?_set_self (by simp; omega)]
  refine ⟨⟨m2, s.stk⟩, _, w, (bind_eq e1).trans e2, yields_kept y1 k2 (lt_of_alive hva.is.choose_spec) ?_, hva2.vars, by rw [hdl]; omega, rfl,
    oth_same hva.slot hva.is.live (k1.oth.trans k2)⟩
  intro b hb
  exact i2.cell_live h2 (List.mem_of_getElem? (i := i) (by rw [List.getElem?_set_self (by simp; omega)])) (by subst hb; simp [Cell.ptrs, Cell.put, V.ptr])

/-! ## Sequences of operations -/

theorem var_step [Env α] {s0 s : State α} (hr : Reach s) {n : Nat} {its : List (Item α)} (h : Items s n its) (hf : Fits its) {p : VOp α}
    (h0 : s.stk = s0.stk) (hv : p.Valid s0 its) (hsm : OthersSame s0 s n) :
    ∃ s', run (p.stmt n) s = .ok () s' ∧ Items s' n (p.list its) ∧ s'.stk = s.stk ∧ OthersSame s s' n := by
  obtain ⟨ps, rfl, h1, h2⟩ := items_pairs.1 h
  have hf1 : Fits (ps.map Prod.snd) := by simpa [Fits] using hf
  have wr : ∀ t : Item α, t.Writable s0 → t.Writable s := by
    intro t ht
    cases t with
    | name m => unfold Item.Writable; rw [h0]; exact ht
    | _ => exact ht
  -- after the operation the items are those of `qs`
  have fin : ∀ (s' : State α) (qs : List (Item α × V α)), Reach s' → Vars s' n (qs.map Prod.snd) → s'.stk = s.stk → OthersSame s s' n →
      (∀ q ∈ qs, q ∈ ps ∨ q.1.Shown s' q.2) → Items s' n (qs.map Prod.fst) := by
    intro s' qs hr' hv' hs ho hq
    refine items_pairs.2 ⟨qs, rfl, hv', fun q hqm => ?_⟩
    rcases hq q hqm with h | h
    · exact shown_keep hr' h1 hv' hs ho (List.mem_map.2 ⟨q, hqm, rfl⟩) (h2 q h)
    · exact h
  cases p with
  | push t =>
    obtain ⟨s', w, e, y, v, hs, ho⟩ := var_push hr h1 (writable_usable (wr t hv) n) hf1
    refine ⟨s', e, ?_, hs, ho⟩
    have := fin s' (ps ++ [(t, w)]) (.ok hr e) (by simpa using v) hs ho (fun q hq => ?_)
    · simpa [VOp.list] using this
    · rcases List.mem_append.1 hq with hq | hq
      · exact .inl hq
      · rw [List.mem_singleton.1 hq]; exact .inr (shown_new (wr t hv) hs y)
  | unshift t =>
    obtain ⟨s', w, e, y, v, hs, ho⟩ := var_unshift hr h1 (writable_usable (wr t hv) n) hf1
    refine ⟨s', e, ?_, hs, ho⟩
    have := fin s' ((t, w) :: ps) (.ok hr e) (by simpa using v) hs ho (fun q hq => ?_)
    · simpa [VOp.list] using this
    · rcases List.mem_cons.1 hq with hq | hq
      · rw [hq]; exact .inr (shown_new (wr t hv) hs y)
      · exact .inl hq
  | insert t p =>
    obtain ⟨hw, hp⟩ := hv
    obtain ⟨s', w, e, y, v, hs, ho⟩ := var_insert (p := p) hr h1 (writable_usable (wr t hw) n) (by simpa using hp) hf1
    refine ⟨s', e, ?_, hs, ho⟩
    have := fin s' (ps.take p ++ (t, w) :: ps.drop p) (.ok hr e) (by simpa using v) hs ho (fun q hq => ?_)
    · simpa [VOp.list] using this
    · rcases List.mem_append.1 hq with hq | hq
      · exact .inl (List.mem_of_mem_take hq)
      · rcases List.mem_cons.1 hq with hq | hq
        · rw [hq]; exact .inr (shown_new (wr t hw) hs y)
        · exact .inl (List.mem_of_mem_drop hq)
  | set i t =>
    obtain ⟨hw, hi⟩ := hv
    obtain ⟨s', w, e, y, v, hs, ho⟩ := var_set_partial (i := i) hr h1 (writable_usable (wr t hw) n) (by simpa using hi) hf1
    refine ⟨s', e, ?_, hs, ho⟩
    have := fin s' (ps.set i (t, w)) (.ok hr e) (by rw [List.map_set]; exact v) hs ho (fun q hq => ?_)
    · rw [List.map_set] at this; exact this
    · rcases List.mem_or_eq_of_mem_set hq with hq | hq
      · exact .inl hq
      · rw [hq]; exact .inr (shown_new (wr t hw) hs y)
  | truncate m =>
    obtain ⟨s', e, v, hs, ho⟩ := var_truncate (m := m) hr h1 (by simpa [VOp.Valid] using hv) hf1
    refine ⟨s', e, ?_, hs, ho⟩
    have := fin s' (ps.take m) (.ok hr e) (by rw [List.map_take]; exact v) hs ho (fun q hq => .inl (List.mem_of_mem_take hq))
    rw [List.map_take] at this
    exact this
  | append t =>
    obtain ⟨s', w, e, y, v, hs, ho⟩ := var_append hr h1 (writable_usable (wr t hv) n) hf1
    refine ⟨s', e, ?_, hs, ho⟩
    have := fin s' (ps ++ [(t, w)]) (.ok hr e) (by simpa using v) hs ho (fun q hq => ?_)
    · simpa [VOp.list] using this
    · rcases List.mem_append.1 hq with hq | hq
      · exact .inl hq
      · rw [List.mem_singleton.1 hq]; exact .inr (shown_new (wr t hv) hs y)
  | presize m =>
    obtain ⟨s', e, v, hs, ho⟩ := var_presize (m := m) hr h1 hv hf1
    exact ⟨s', e, fin s' ps (.ok hr e) v hs ho (fun q hq => .inl hq), hs, ho⟩
  | pop =>
    obtain ⟨own, a, cells, hva⟩ := va_of_vars hr h1
    have hne : ps.map Prod.snd ≠ [] := by intro h; apply hv; simpa using h
    rw [← List.dropLast_concat_getLast hne] at hva
    have hl : ((ps.map Prod.snd).dropLast).length + 2 ≤ 2 ^ 30 := by have : (ps.map Prod.snd).length + 2 ≤ 2 ^ 30 := hf1; rw [List.length_dropLast]; omega
    obtain ⟨m1, c1, e1, h3, -, k1⟩ := pop_va hva (by omega)
    obtain ⟨s', e, v, hs, ho⟩ := drop_tot (e := .pop n) hva e1 h3 k1
    refine ⟨s', e, ?_, hs, ho⟩
    have := fin s' ps.dropLast (.ok hr e) (by rw [List.map_dropLast]; exact v) hs ho (fun q hq => .inl (List.mem_of_mem_dropLast hq))
    rw [List.map_dropLast] at this
    exact this
  | shift =>
    obtain ⟨own, a, cells, hva⟩ := va_of_vars hr h1
    cases ps with
    | nil => exact absurd rfl hv
    | cons q ps =>
      have hl : (ps.map Prod.snd).length + 2 ≤ 2 ^ 30 := by
        have : ((q :: ps).map Prod.snd).length + 2 ≤ 2 ^ 30 := hf1
        simp only [List.map_cons, List.length_cons] at this ⊢
        omega
      obtain ⟨m1, c1, e1, h3, k1⟩ := shift_va (u := q.2) (vs := ps.map Prod.snd) hva (by omega)
      obtain ⟨s', e, v, hs, ho⟩ := drop_tot (e := .shift n) hva e1 h3 k1
      refine ⟨s', e, ?_, hs, ho⟩
      exact fin s' ps (.ok hr e) v hs ho (fun r hr => .inl (List.mem_cons_of_mem _ hr))
  | remove i =>
    obtain ⟨t, ht, hc⟩ := hv
    obtain ⟨own, a, cells, hva⟩ := va_of_vars hr h1
    have hl : (ps.map Prod.snd).length + 2 ≤ 2 ^ 30 := hf1
    rw [List.getElem?_map] at ht
    cases hq : ps[i]? with
    | none => rw [hq] at ht; cases ht
    | some q =>
      rw [hq] at ht
      cases ht
      have hsh := h2 q (List.mem_of_getElem? hq)
      have hlive : ∀ b, q.2 = .arr b → Live s.mem b := fun b hb => vars_live hr h1 (hb ▸ List.mem_map.2 ⟨q, List.mem_of_getElem? hq, rfl⟩)
      have keep : Copyable s0 q.2 → Copyable s q.2 := by
        intro h b hb
        obtain ⟨o1, ho1⟩ := hlive b hb
        obtain ⟨o, g1, g2, g3, g4⟩ := h b hb
        by_cases hba : b = a
        · subst hba
          obtain ⟨rc, g⟩ := hva.is
          exact ⟨_, g, by simp, by simp, hl⟩
        · have : s0.stk[n]? ≠ some (.arr b) := by
            rw [← h0, hva.slot]
            intro h
            cases h
            exact hba rfl
          rcases hsm.1 b o this g1 with hh | ⟨o2, f1, f2, f3, f4⟩
          · rw [ho1] at hh; cases hh
          · exact ⟨o2, f1, by rw [f2]; exact g2, by rw [f2]; exact g3, by rw [f3]; exact g4⟩
      have hcp : Copyable s q.2 := by
        revert hsh hc keep
        obtain ⟨t, v⟩ := q
        simp only
        intro hc hsh keep
        cases t with
        | nil => rw [show v = .nil from hsh]; intro b hb; cases hb
        | num k x => rw [show v = .num k x from hsh]; intro b hb; cases hb
        | str cs =>
          obtain ⟨b, o, rfl, g1, g2, g3, g4⟩ := hsh
          intro b' hb'
          cases hb'
          have : cs.length + 2 ≤ 2 ^ 30 := hc
          exact ⟨o, g1, by rw [g2]; decide, by rw [g2]; decide, by rw [g3]; exact this⟩
        | name m => exact keep (hc v (by rw [← h0]; exact hsh))
        | val u => rw [show v = u from hsh] at keep ⊢; exact keep hc
      obtain ⟨m1, c1, r, e1, h3, k1, -⟩ := remove_va (u := q.2) hva (by rw [List.getElem?_map, hq]; rfl) (by omega) (copyable_can hr hcp)
      obtain ⟨s', e, v, hs, ho⟩ := drop_tot (e := .remove n i) hva e1 h3 k1
      refine ⟨s', e, ?_, hs, ho⟩
      have := fin s' (ps.eraseIdx i) (.ok hr e) (by rw [← List.eraseIdx_map]; exact v) hs ho (fun q hq => .inl (List.mem_of_mem_eraseIdx hq))
      rw [← List.eraseIdx_map] at this
      exact this

/-- C39 for arrays of vars: any sequence of valid operations runs without exceptions, makes of the array what the
    operations make of a list, and changes no variable and no other array.  Values are nil, numbers, strings, and
    variables that are no references; removed elements must be such that they can be copied. -/
theorem var_array_is_list_partial [Env α] {s : State α} (hr : Reach s) {n : Nat} {its : List (Item α)} (h : Items s n its)
    (ops : List (VOp α)) (hv : ValidItemOps s ops its) :
    ∃ s', Runs (ops.map (VOp.stmt n)) s s' ∧ Items s' n (itemOps ops its) ∧ s'.stk = s.stk ∧ OthersSame s s' n := by
  suffices H : ∀ (ops : List (VOp α)) (its : List (Item α)) (s1 : State α), Reach s1 → s1.stk = s.stk → OthersSame s s1 n → Items s1 n its →
      ValidItemOps s ops its → ∃ s', Runs (ops.map (VOp.stmt n)) s1 s' ∧ Items s' n (itemOps ops its) ∧ s'.stk = s.stk ∧ OthersSame s s' n from
    H ops its s hr rfl ⟨fun b o _ ho => .inr ⟨o, ho, rfl, rfl, rfl⟩, fun b hb => hb⟩ h hv
  intro ops
  induction ops with
  | nil => exact fun its s1 hr1 hs1 ho1 h1 _ => ⟨s1, rfl, h1, hs1, ho1⟩
  | cons p ops ih =>
    rintro its s1 hr1 hs1 ho1 h1 ⟨hf, hv, hvs⟩
    obtain ⟨s2, e2, h2, hs2, ho2⟩ := var_step hr1 h1 hf hs1 hv ho1
    obtain ⟨s', e, h', hs', ho'⟩ := ih _ s2 (.ok hr1 e2) (hs2.trans hs1) (same_trans ho1 ho2 hs1) h2 hvs
    exact ⟨s', ⟨s2, e2, e⟩, h', hs', ho'⟩

/-! ## Cases that meet the hypotheses -/

/-- `x.push("A"); x.push(5); y = 3; y.push(4);` -/
def progTwo : List (Stmt Int) := progVars ++ [.decl (.num .int 3), .push 1 (.num .int 4)]

theorem progTwo_reach : Reach (final progTwo) := reach_exec progTwo .start (by decide +kernel)

theorem progTwo_vars : Vars (final progTwo) 0 [.arr 0, .num .int 5] := by
  refine ⟨1, ⟨.var, 2, 1, [.var (.arr 0), .var (.num .int 5), .var .nil, .var .nil, .var .nil, .var .nil, .var .nil, .var .nil]⟩,
    by decide +kernel, by decide +kernel, rfl, rfl, fun i c hc => ?_⟩
  match i, hc with
  | 0, hc => simpa using hc
  | 1, hc => simpa using hc

theorem progTwo_contents : Contents (final progTwo) 1 .int [3, 4] :=
  contents_of (a := 2) (o := ⟨.int, 2, 1, [.raw (some 3), .raw (some 4), .raw none, .raw none, .raw none, .raw none, .raw none, .raw none]⟩)
    [3, 4] (by decide +kernel) (by decide +kernel) (by decide) rfl

/-- Strings, numbers, `y`, `x` itself, and `y[1]` can be put into `x`. -/
example : Usable (final progTwo) 0 (.str [66, 67]) ∧ Usable (final progTwo) 0 (.num .float 2) ∧ Usable (final progTwo) 0 (.name 1) ∧
    Usable (final progTwo) 0 (.name 0) ∧ Usable (final progTwo) 0 (.elem 1 1) ∧ Fits (α := V Int) [.arr 0, .num .int 5] :=
  ⟨by simp [Usable, Fits], ⟨⟨by decide, by decide⟩, by decide⟩, ⟨.arr 2, by decide +kernel, fun _ _ h => by cases h⟩,
    ⟨.arr 1, by decide +kernel, fun _ _ h => by cases h⟩,
    ⟨⟨1, 2, by decide, by decide +kernel, by decide +kernel⟩, 1, rfl, .inr ⟨.int, [3, 4], ⟨⟨by decide, by decide⟩, by decide⟩, progTwo_contents, by decide⟩⟩,
    by simp [Fits]⟩

/-- `x[0]` is the string "A", which can be copied; `x[1]` is no array. -/
example : Copyable (final progTwo) (.arr 0) ∧ (∀ b, (V.num .int 5 : V Int) ≠ .arr b) := by
  refine ⟨fun b hb => ⟨⟨.char, 1, 1, [.raw (some 65), .raw (some 0), .raw none, .raw none, .raw none, .raw none, .raw none, .raw none]⟩, ?_, by decide, by decide, by decide⟩,
    fun b h => by cases h⟩
  cases hb
  decide +kernel

theorem progTwo_items : Items (final progTwo) 0 [.str [65], .num .int 5] := by
  refine ⟨_, progTwo_vars, rfl, fun i t v ht hv => ?_⟩
  match i, ht, hv with
  | 0, ht, hv =>
    cases ht
    cases hv
    refine ⟨0, ⟨.char, 1, 1, [.raw (some 65), .raw (some 0), .raw none, .raw none, .raw none, .raw none, .raw none, .raw none]⟩, rfl, by decide +kernel, rfl, rfl, ?_⟩
    intro i x hx
    match i, hx with
    | 0, hx => simpa using hx
  | 1, ht, hv =>
    cases ht
    cases hv
    rfl

/-- Operations on `x`: eleven of them, with strings, numbers and `y`. -/
def vops : List (VOp Int) :=
  [.push (.str [66]), .unshift (.name 1), .insert (.num .float 7) 2, .remove 1, .set 0 .nil, .pop, .push (.name 1), .shift, .truncate 2, .presize 1, .append (.str [67])]

example : ValidItemOps (final progTwo) vops [.str [65], .num .int 5] ∧
    itemOps vops [.str [65], .num .int 5] = [.num .float 7, .num .int 5, .str [67]] := by
  have h1 : (final progTwo).stk[1]? = some (.arr 2) := by decide +kernel
  refine ⟨?_, rfl⟩
  simp [vops, ValidItemOps, VOp.Valid, VOp.list, Fits, Item.Writable, Item.Removable, Scalar, Number, h1, Plain]

/-! ## What does not hold -/

/-- C41 for arrays of vars. -/
def VarRemoveReturns : Prop := ∀ (s s' : State Int) (n i : Nat) (vs : List (V Int)) (u : V Int), Reach s → Vars s n vs → vs[i]? = some u →
  run (.decl (.remove n i)) s = .ok () s' → Denotes s' s.stk.length u

/-- `x.push(5); x.push("A")`, as vars. -/
def progRem : List (Stmt Int) := [.decl .nil, .push 0 (.str [65]), .unshift 0 (.num .int 5)]

theorem progRem_vars : Vars (final progRem) 0 [.num .int 5, .arr 0] := by
  refine ⟨1, ⟨.var, 2, 1, [.var (.num .int 5), .var (.arr 0), .var .nil, .var .nil, .var .nil, .var .nil, .var .nil, .var .nil]⟩,
    by decide +kernel, by decide +kernel, rfl, rfl, fun i c hc => ?_⟩
  match i, hc with
  | 0, hc => simpa using hc
  | 1, hc => simpa using hc

/-- The var `x.remove(0)` returns denotes what was `x[1]`. -/
theorem var_remove_wrong : ¬ VarRemoveReturns := by
  intro h
  have h1 : run (.decl (.remove 0 0)) (final progRem) = .ok () (final (progRem ++ [.decl (.remove 0 0)])) := by decide +kernel
  have h2 := h (final progRem) _ 0 0 _ (.num .int 5) (reach_exec progRem .start (by decide +kernel)) progRem_vars rfl h1
  have h3 : (final (progRem ++ [.decl (.remove 0 0)])).stk = [.arr 1, .ref 1 0] := by decide +kernel
  have h4 : (final (progRem ++ [.decl (.remove 0 0)])).mem[1]? = some (some ⟨.var, 1, 2, [.var (.arr 0), .var (.arr 0), .var .nil, .var .nil,
    .var .nil, .var .nil, .var .nil, .var .nil]⟩) := by decide +kernel
  have h5 : (final progRem).stk.length = 1 := by decide +kernel
  rw [h5] at h2
  rcases h2 with ⟨h2, -⟩ | ⟨a, i, o, h2, h6, -, h7⟩
  · rw [h3] at h2; cases h2
  · rw [h3] at h2
    cases h2
    rw [h4] at h6
    cases h6
    cases h7

/-- `x.push("A"); x.unshift(cdouble(1));` -/
def progRemCplx : List (Stmt Int) := [.decl .nil, .push 0 (.str [65]), .unshift 0 (.num .cdouble 1)]

/-- Removing an element that is an array of complex numbers throws, and nothing changes. -/
theorem var_remove_complex_throws : run (.eval (.remove 0 0)) (final progRemCplx) =
    .thrown (.error "Heap::copy(): Unknown type") (final progRemCplx) := by decide +kernel

/-- New elements are nil. -/
def ResizeNil : Prop := ∀ (s s' : State Int) (n m i : Nat) (vs vs' : List (V Int)) (v : V Int), Reach s → Vars s n vs →
  run (.resize n m) s = .ok () s' → Vars s' n vs' → vs.length ≤ i → vs'[i]? = some v → v = .nil

/-- `x.push("A"); x.push(5); x.resize(1); x.resize(2);`: the old element is back. -/
theorem resize_shows_old : ¬ ResizeNil := by
  intro h
  have h1 : run (.resize 0 2) (final (progVars ++ [.resize 0 1])) = .ok () (final (progVars ++ [.resize 0 1, .resize 0 2])) := by decide +kernel
  have h2 := h (final (progVars ++ [.resize 0 1])) _ 0 2 1 [.arr 0] [.arr 0, .num .int 5] (.num .int 5)
    (reach_exec (progVars ++ [.resize 0 1]) .start (by decide +kernel))
    ⟨1, ⟨.var, 1, 1, [.var (.arr 0), .var (.num .int 5), .var .nil, .var .nil, .var .nil, .var .nil, .var .nil, .var .nil]⟩,
      by decide +kernel, by decide +kernel, rfl, rfl, fun i c hc => by
        match i, hc with
        | 0, hc => simpa using hc⟩ h1
    ⟨1, ⟨.var, 2, 1, [.var (.arr 0), .var (.num .int 5), .var .nil, .var .nil, .var .nil, .var .nil, .var .nil, .var .nil]⟩,
      by decide +kernel, by decide +kernel, rfl, rfl, fun i c hc => by
        match i, hc with
        | 0, hc => simpa using hc
        | 1, hc => simpa using hc⟩ (by simp) rfl
  cases h2

/-- `at` with an index outside the array throws. -/
def AtChecked : Prop := ∀ (s : State Int) (n : Nat) (k : Kind) (cs : List (Cell Int)) (i : Int), Reach s → Elems s n k cs →
  (i < 0 ∨ cs.length ≤ i) → ∃ e s', run (.decl (.at n i)) s = .thrown e s'

/-- It does not: `x.at(100)` is a reference outside the storage, and reading it undefined. -/
theorem at_unchecked : ¬ AtChecked ∧ run (.push 1 (.at 0 100)) (final (progVars ++ [.decl .nil])) = .ub .outOfBounds := by
  refine ⟨fun h => ?_, by decide +kernel⟩
  obtain ⟨e, s', h1⟩ := h (final progVars) 0 .var _ 100 progVars_reach progVars_elems (.inr (by decide))
  have h2 : run (.decl (.at 0 100)) (final progVars) = .ok () (final (progVars ++ [.decl (.at 0 100)])) := by decide +kernel
  rw [h2] at h1
  cases h1

/-- For a number the index is checked. -/
theorem at_number_partial [Env α] {s : State α} {n : Nat} {k : Kind} {x : α} (h : s.stk[n]? = some (.num k x)) (i : Int) :
    eval (.at n i) s = if i = 0 then .ok (.num k x) s else .thrown (.error "var::at(): Index out of bounds") s := by
  refine (bind_eq (readSlot h)).trans ?_
  by_cases hi : i = 0
  · subst hi
    simp only [bind_run, M.bind, pure_run, at', attachV, V.ptr, withVar, dereference, readTemp]
    simp [bind_run, M.bind, throwE, detachV, V.ptr, getMem, release, liftO, setMem, copyV, attachV, pure_run]
  · simp only [bind_run, M.bind, pure_run, at', attachV, V.ptr, withVar, dereference, readTemp]
    simp [bind_run, M.bind, throwE, detachV, V.ptr, getMem, release, liftO, setMem, copyV, attachV, hi]

/-- For an array and a valid index, `at` refers to the element. -/
theorem at_element_partial [Env α] {s : State α} (hr : Reach s) {n i : Nat} {vs : List (V α)} {u : V α} (h : Vars s n vs) (hu : vs[i]? = some u) :
    ∃ s', run (.decl (.at n i)) s = .ok () s' ∧ Vars s' n vs ∧ Denotes s' s.stk.length u ∧ OthersSame s s' n := by
  obtain ⟨own, a, cells, hva⟩ := va_of_vars hr h
  obtain ⟨m1, e1, i1, h1, k1⟩ := at_tot hva.inv hva.is i
  have hv := VA.vars (VA.push_stk (v := .ref a i) (s := { s with mem := m1 }) (VA.own hva i1 k1))
  obtain ⟨rc, g⟩ := h1
  exact ⟨⟨m1, s.stk ++ [.ref a i]⟩, (bind_eq (m := eval (.at n i)) ((bind_eq (readSlot hva.slot)).trans e1)).trans rfl, hv,
    .inr ⟨a, i, _, by simp, g, rfl, hva.elem i u hu⟩, oth_same hva.slot hva.is.live k1.oth⟩

#print axioms var_array_is_list_partial
#print axioms var_set_partial
#print axioms var_set_grows_partial
#print axioms var_set_own
#print axioms var_push_own
#print axioms var_pop_partial
#print axioms var_shift_partial
#print axioms var_remove_partial
#print axioms var_remove_array_partial
#print axioms var_remove_wrong
#print axioms var_remove_complex_throws
#print axioms resize_shows_old
#print axioms at_unchecked
#print axioms at_number_partial
#print axioms at_element_partial

end Libube.MemProps

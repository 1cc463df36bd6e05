import Verif.Lemmas.MemSearch
import Verif.Props.MemUnary
import Verif.Props.MemNil

/-! # String functions on nested data (C120 – C123) -/

namespace Libube.MemProps

open Mem MemSpec

variable {α : Type}

theorem stands_deno {s : State α} {own : List Addr} (hi : Inv s own) {n : Nat} {w : V α} (h : Stands s n w) (hw : ¬ w.IsRef) : ∃ v, s.stk[n]? = some v ∧ Deno s.mem v w := by
  cases h with
  | var h => exact ⟨w, h, .self hw⟩
  | @elem a i o h1 h2 h3 =>
    refine ⟨_, h1, .var (k := o.kind) (n := o.size) (cells := o.cells) ⟨o.rc, h2⟩ ?_ h3 rfl hw⟩
    have := InvM.typed hi a o h2 _ (List.mem_of_getElem? h3)
    exact .inl this
  | @value a i o k h1 h2 h3 =>
    refine ⟨_, h1, .var (k := o.kind) (n := o.size) (cells := o.cells) ⟨o.rc, h2⟩ ?_ h3 rfl hw⟩
    have := InvM.typed hi a o h2 _ (List.mem_of_getElem? h3)
    exact .inr this

theorem deno_stands {s : State α} {n : Nat} {v : V α} {a : Addr} (h : s.stk[n]? = some v) (hd : Deno s.mem v (.arr a)) : Stands s n (.arr a) := by
  cases hd with
  | self _ => exact .var h
  | @var b j k N cells c _ h1 h2 h3 h4 h5 =>
    obtain ⟨rc, h1⟩ := h1
    cases c with
    | raw x => cases h4
    | var x => cases h4; exact .elem h h1 h3
    | pair k x => cases h4; exact .value h h1 h3

/-- Data made of strings. -/
theorem strs_of_tree {mem : List (Option (Obj α))} {w : V α} {t : Nested α} {fp : List Addr} (h : IsTree mem w t fp) {P : List α → Prop} :
    t.Strings P → ∀ {d : Nat}, t.depth ≤ d → Strs mem w d fp := by
  have node : ∀ {ts : List (Nested α)} {d : Nat}, (ts.map Nested.depth).foldr max 0 + 1 ≤ d + 1 → ∀ t ∈ ts, t.depth ≤ d := by
    intro ts d hd t ht
    have := le_foldr (List.mem_map_of_mem (f := Nested.depth) ht)
    omega
  induction h with
  | num h => intro h; cases h
  | @nums a o k xs h1 h2 h3 =>
    intro hs d hd
    rw [Nested.depth] at hd
    obtain ⟨d, rfl⟩ : ∃ e, d = e + 1 := ⟨d - 1, by omega⟩
    cases hs with
    | str _ => exact .str h1 h3
  | @list a o vs ts fs h1 h2 h3 h4 h5 h6 h7 ih =>
    intro hs d hd
    rw [depth_list] at hd
    obtain ⟨d, rfl⟩ : ∃ e, d = e + 1 := ⟨d - 1, by omega⟩
    cases hs with
    | list hs =>
      refine .node h1 (.inl h2) (by omega) (by omega) (fun i v hv => ⟨_, h6 i v hv, rfl⟩) fun i v f hv hf => ?_
      have hlt : i < ts.length := by have := (List.getElem?_eq_some_iff.1 hv).1; omega
      exact ih i v _ f hv (List.getElem?_eq_getElem hlt) hf (hs _ (List.getElem_mem hlt)) (node hd _ (List.getElem_mem hlt))
  | @map a o ks vs ts fs h1 h2 h3 h3' h4 h5 h6 h7 ih =>
    intro hs d hd
    rw [depth_map] at hd
    obtain ⟨d, rfl⟩ : ∃ e, d = e + 1 := ⟨d - 1, by omega⟩
    cases hs with
    | map hs =>
      refine .node h1 (.inr h2) (by omega) (by omega) (fun i v hv => ⟨_, h6 i (ks[i]'(by have := (List.getElem?_eq_some_iff.1 hv).1; omega)) v (List.getElem?_eq_getElem _) hv, rfl⟩)
        fun i v f hv hf => ?_
      have hlt : i < ts.length := by have := (List.getElem?_eq_some_iff.1 hv).1; omega
      exact ih i v _ f hv (List.getElem?_eq_getElem hlt) hf (hs _ (List.getElem_mem hlt)) (node hd _ (List.getElem_mem hlt))

theorem tree_up {f g : α → α} {c : Addr → Nat} {m1 m2 : List (Option (Obj α))} {stk : List (V α)} {own : List Addr} (hu : Up f c m1 m2) (hi : Inv ⟨m2, stk⟩ own) {w : V α} {t : Nested α}
    {fp : List Addr} (h : IsTree m1 w t fp) {P : List α → Prop} :
    t.Strings P → (∀ b ∈ w.ptr.toList, Live m2 b) → (∀ b ∈ fp, f^[c b] = g) → IsTree m2 w (t.mapText (List.map g)) fp := by
  induction h with
  | num h => intro h; cases h
  | @nums a o k xs h1 h2 h3 =>
    intro hs hl hg
    cases hs with
    | str _ =>
      obtain ⟨o2, h4⟩ := hl a (by simp [V.ptr])
      obtain ⟨o1, e1, e2, e3, e4⟩ := hu.2 a o2 (lt_of_alive h1) h4
      rw [h1] at e1
      cases e1
      rw [if_pos h3.1, hg a (by simp)] at e4
      rw [mapText_str]
      exact .nums h4 h2 (elements_up h3 e2 e3 e4)
  | @list a o vs ts fs h1 h2 h3 h4 h5 h6 h7 ih =>
    intro hs hl hg
    cases hs with
    | list hs =>
      have his := Is.up (k := o.kind) (n := o.size) (cells := o.cells) ⟨o.rc, h1⟩ hu (by rw [h2]; decide) (hl a (by simp [V.ptr]))
      obtain ⟨rc, q⟩ := id his
      rw [mapText_list]
      refine .list q h2 (by simpa using h3) (by simpa using h4) (by simpa using h5) h6 fun i v t f e1 e2 e3 => ?_
      rw [List.getElem?_map] at e2
      obtain ⟨t', e2', rfl⟩ := Option.map_eq_some_iff.1 e2
      refine ih i v t' f e1 e2' e3 (hs _ (List.mem_of_getElem? e2')) (fun b hb => ?_) fun b hb => ?_
      · exact hi.cell_live his (List.mem_of_getElem? (h6 i v e1)) (by simpa [Cell.ptrs] using hb)
      · exact hg b (List.mem_cons_of_mem _ (List.mem_flatten.2 ⟨f, List.mem_of_getElem? e3, hb⟩))
  | @map a o ks vs ts fs h1 h2 h3 h3' h4 h5 h6 h7 ih =>
    intro hs hl hg
    cases hs with
    | map hs =>
      have his := Is.up (k := o.kind) (n := o.size) (cells := o.cells) ⟨o.rc, h1⟩ hu (by rw [h2]; decide) (hl a (by simp [V.ptr]))
      obtain ⟨rc, q⟩ := id his
      rw [mapText_map]
      refine .map q h2 (by simpa using h3) (by simpa using h3') (by simpa using h4) (by simpa using h5) h6 fun i v t f e1 e2 e3 => ?_
      rw [List.getElem?_map] at e2
      obtain ⟨t', e2', rfl⟩ := Option.map_eq_some_iff.1 e2
      refine ih i v t' f e1 e2' e3 (hs _ (List.mem_of_getElem? e2')) (fun b hb => ?_) fun b hb => ?_
      · have hlt : i < ks.length := by have := (List.getElem?_eq_some_iff.1 e1).1; omega
        refine hi.cell_live his (List.mem_of_getElem? (h6 i ks[i] v (List.getElem?_eq_getElem hlt) e1)) ?_
        simp only [Cell.ptrs, List.mem_append]
        exact .inr hb
      · exact hg b (List.mem_cons_of_mem _ (List.mem_flatten.2 ⟨f, List.mem_of_getElem? e3, hb⟩))

theorem up_oth {f : α → α} {fp : List Addr} {m1 m2 : List (Option (Obj α))} (h : Up f (fun b => fp.count b) m1 m2) : Oth (· ∈ fp) m1 m2 := by
  refine ⟨h.1, fun b o' hb hl ho => ?_⟩
  obtain ⟨o, e1, e2, e3, e4⟩ := h.2 b o' hl ho
  refine ⟨o, e1, e2, e3, ?_⟩
  rw [e4]
  simp only [List.count_eq_zero.2 hb, Function.iterate_zero, upCells_id, ite_self]

theorem iterate_idem {f : α → α} (h : ∀ x, f (f x) = f x) : ∀ n, 0 < n → f^[n] = f
  | 1, _ => rfl
  | n + 2, _ => by
    rw [Function.iterate_succ, iterate_idem h (n + 1) (by omega)]
    exact funext h

theorem strings_arr {mem : List (Option (Obj α))} {w : V α} {t : Nested α} {fp : List Addr} (h : IsTree mem w t fp) {P : List α → Prop} (hs : t.Strings P) : ∃ a, w = .arr a := by
  cases h with
  | num _ => cases hs
  | _ => exact ⟨_, rfl⟩

theorem strings_mono {P Q : List α → Prop} {t : Nested α} (h : t.Strings P) (hpq : ∀ xs, P xs → Q xs) : t.Strings Q := by
  induction h with
  | str h => exact .str (hpq _ h)
  | list _ ih => exact .list ih
  | map _ ih => exact .map ih

/-! ## In place -/

/-- C120: `x.toupper()` changes the characters of every string, at any depth, and nothing else: the variables hold what they held, the arrays are the same ones, so that all that share
    them see the change, and no other array changes.  A string found at two places is changed twice, which makes no difference as `f` applied twice is `f`.
    Missing: data with elements that are no strings (`case_number_diverges`, `case_char_lost`). -/
theorem case_in_place_partial [Env α] {f : α → α} {s : State α} (hr : Reach s) {n : Nat} {v w : V α} (hv : s.stk[n]? = some v) (hw : Stands s n w) {t : Nested α} {fp : List Addr}
    (h : IsTree s.mem w t fp) (hs : t.Strings fun _ => True) (hf : fp.Nodup ∨ ∀ x, f (f x) = f x) {d : Nat} (hd : t.depth ≤ d) :
    ∃ s', strTo (mapCase f) d n n s = .ok v s' ∧ s'.stk = s.stk ∧ (∀ m, Stands s m w → Stands s' m w) ∧ IsTree s'.mem w (t.mapText (List.map f)) fp ∧ Beside s s' fp := by
  obtain ⟨own, hi⟩ := reach_inv hr
  obtain ⟨a, rfl⟩ := strings_arr h hs
  obtain ⟨v', hv', hD⟩ := stands_deno hi hw id
  rw [hv] at hv'
  cases hv'
  have hvs : ∀ b ∈ v.ptr.toList, b ∈ stkPtrs s.stk := fun b hb => mem_stkPtrs hv hb
  obtain ⟨m1, e1, i1, u1⟩ := strs_ok f d (same := true) hi hD hD hv hvs (strs_of_tree h hs hd)
  obtain ⟨m2, e2, i2, k2, l2⟩ := attach_tot (s := ⟨m1, s.stk⟩) i1 (v := v) (fun b hb => i1.stk_live (hvs b hb))
  have u2 := u1.kept k2
  have i2' : Inv ⟨m2, s.stk⟩ (v.ptr.toList ++ own) := i2
  have hD2 : Deno m2 v (.arr a) := hD.up u2 fun b hb => i2.stk_live (hvs b hb)
  refine ⟨⟨m2, s.stk⟩, ?_, rfl, fun m hm => ?_, tree_up u2 i2 h hs (by simpa [V.ptr] using hD2.live i2 hvs) fun b hb => ?_, beside (up_oth u2) (tree_live h)⟩
  · unfold strTo
    refine (bind_eq (readSlot hv)).trans ?_
    rw [decide_eq_true rfl]
    refine (bind_eq e1).trans ?_
    refine (bind_eq (readSlot (s := ⟨m1, s.stk⟩) hv)).trans ?_
    unfold copyV
    exact (bind_eq e2).trans rfl
  · obtain ⟨x, hx, hxd⟩ := stands_deno hi hm id
    exact deno_stands (s := ⟨m2, s.stk⟩) hx (hxd.up u2 fun b hb => i2.stk_live (mem_stkPtrs hx hb))
  · rcases hf with hf | hf
    · simp only [List.count_eq_one_of_mem hf hb, Function.iterate_one]
    · exact iterate_idem hf _ (List.count_pos_iff.2 hb)

/-! ## New strings -/

/-- What a variable stands for stays as it is. -/
theorem still {s s' : State α} {own own' : List Addr} (hi : Inv s own) {n : Nat} {a : Addr} (hw : Stands s n (.arr a)) {t : Nested α} {fp : List Addr} (h : IsTree s.mem (.arr a) t fp)
    (hk : Kept s.mem s'.mem) (hi' : Inv s' own') (hs : s'.stk = s.stk) : Stands s' n (.arr a) ∧ IsTree s'.mem (.arr a) t fp := by
  obtain ⟨m', stk'⟩ := s'
  simp only at hk hs ⊢
  subst hs
  obtain ⟨v, hv, hD⟩ := stands_deno hi hw id
  have hvs : ∀ b ∈ v.ptr.toList, b ∈ stkPtrs s.stk := fun b hb => mem_stkPtrs hv hb
  have hD2 : Deno m' v (.arr a) := hD.kept hk (fun _ _ _ => id) fun b hb => hi'.stk_live (hvs b hb)
  exact ⟨deno_stands (s := ⟨m', s.stk⟩) hv hD2, isTree_kept hk hi' h (by simpa [V.ptr] using hD2.live hi' hvs) fun _ _ => id⟩

/-- A call that makes a new variable. -/
theorem strNew_val [Env α] {S : StrFn α} {d : Nat} {s : State α} {own : List Addr} {n : Nat} {v : V α} (hv : s.stk[n]? = some v) {a : Addr} (hD : Deno s.mem v (.arr a)) {o ob : Obj α}
    (ho : s.mem[a]? = some (some o)) (hnew : newHeap o.size (some o.kind) s = .ok s.mem.length ⟨s.mem ++ [some ob], s.stk⟩) (hi : Inv ⟨s.mem ++ [some ob], s.stk⟩ (s.mem.length :: own))
    {Q : List (Option (Obj α)) → V α → Prop}
    (hcall : ∀ m2, Inv ⟨m2, s.stk ++ [.arr s.mem.length]⟩ own → Kept (s.mem ++ [some ob]) m2 →
      ∃ (m3 : List (Option (Obj α))) (e : V α), strCall S d false v (.slot s.stk.length) ⟨m2, s.stk ++ [.arr s.mem.length]⟩ = .ok () ⟨m3, s.stk ++ [e]⟩ ∧ Inv ⟨m3, s.stk ++ [e]⟩ own ∧ Q m3 e)
    (hQ : ∀ {m m' e stk' own'}, Q m e → Kept m m' → Inv ⟨m', stk'⟩ own' → (∀ b ∈ e.ptr.toList, Live m' b) → Q m' e) :
    ∃ mem' e, strNew S d n s = .ok e ⟨mem', s.stk⟩ ∧ Inv ⟨mem', s.stk⟩ (e.ptr.toList ++ own) ∧ Q mem' e := by
  have i0 : Inv ⟨s.mem ++ [some ob], s.stk ++ [.nil]⟩ ((V.arr s.mem.length : V α).ptr.toList ++ own) := by
    have := Inv.push (s := ⟨s.mem ++ [some ob], s.stk⟩) (v := .nil) (own := s.mem.length :: own) (by simpa [V.ptr] using hi)
    simpa [V.ptr] using this
  have hs0 : (s.stk ++ [(.nil : V α)])[s.stk.length]? = some .nil := by simp
  obtain ⟨m2, e2, i2, k2⟩ := assignSlot_tot (s := ⟨s.mem ++ [some ob], s.stk ++ [.nil]⟩) (v := .arr s.mem.length) (w := .arr s.mem.length) (own := own) i0 hs0 id (.self id)
  simp only [set_last] at e2 i2
  obtain ⟨m3, e, e3, i3, q3⟩ := hcall m2 i2 k2
  have hs3 : (s.stk ++ [e])[s.stk.length]? = some e := by simp
  obtain ⟨m4, e4, i4, k4, l4⟩ := attach_tot (s := ⟨m3, s.stk ++ [e]⟩) i3 (v := e) (fun b hb => i3.stk_live (mem_stkPtrs hs3 hb))
  have q4 := hQ q3 k4 i4 (fun b hb => i4.stk_live (mem_stkPtrs hs3 hb))
  obtain ⟨m5, e5, i5, k5⟩ := withVar_tot (s := ⟨s.mem ++ [some ob], s.stk⟩) (v := .nil) (w := e) (m1 := m4) (b := e)
    (f := fun lr => assign lr (.arr s.mem.length) >>= fun _ => strCall S d false v lr >>= fun _ => readLoc lr >>= fun w => copyV w) (by
      refine (bind_eq (b := ()) (s1 := ⟨m2, s.stk ++ [.arr s.mem.length]⟩) ?_).trans ?_
      · unfold assign
        refine (bind_eq (readSlot (s := ⟨s.mem ++ [some ob], s.stk ++ [.nil]⟩) hs0)).trans ?_
        exact e2
      refine (bind_eq e3).trans ?_
      refine (bind_eq (readSlot (s := ⟨m3, s.stk ++ [e]⟩) hs3)).trans ?_
      unfold copyV
      exact (bind_eq e4).trans rfl) i4
  refine ⟨m5, e, ?_, i5, hQ q4 k5 i5 (fun b hb => i5.own_live (List.mem_append_left _ hb))⟩
  unfold strNew
  refine (bind_eq (readSlot hv)).trans ?_
  refine (bind_eq (heapOf_deno hD)).trans ?_
  simp only
  refine (bind_eq (obj_eq ho)).trans ?_
  refine (bind_eq hnew).trans ?_
  exact e5

theorem strNew_run [Env α] {S : StrFn α} {d : Nat} {s : State α} {own : List Addr} {n : Nat} {v : V α} (hv : s.stk[n]? = some v) {a : Addr} (hD : Deno s.mem v (.arr a)) {o ob : Obj α}
    (ho : s.mem[a]? = some (some o)) (hnew : newHeap o.size (some o.kind) s = .ok s.mem.length ⟨s.mem ++ [some ob], s.stk⟩) (hi : Inv ⟨s.mem ++ [some ob], s.stk⟩ (s.mem.length :: own))
    {Q : List (Option (Obj α)) → Addr → Prop}
    (hcall : ∀ m2, Inv ⟨m2, s.stk ++ [.arr s.mem.length]⟩ own → Kept (s.mem ++ [some ob]) m2 →
      ∃ m3 e, strCall S d false v (.slot s.stk.length) ⟨m2, s.stk ++ [.arr s.mem.length]⟩ = .ok () ⟨m3, s.stk ++ [.arr e]⟩ ∧ Inv ⟨m3, s.stk ++ [.arr e]⟩ own ∧ Q m3 e)
    (hQ : ∀ {m m' e stk' own'}, Q m e → Kept m m' → Inv ⟨m', stk'⟩ own' → Live m' e → Q m' e) :
    ∃ mem' e, strNew S d n s = .ok (.arr e) ⟨mem', s.stk⟩ ∧ Inv ⟨mem', s.stk⟩ (e :: own) ∧ Q mem' e := by
  obtain ⟨m', r, e, i, a, rfl, q⟩ := strNew_val hv hD ho hnew hi (Q := fun m r => ∃ a, r = .arr a ∧ Q m a)
    (fun m2 j2 k2 => by
      obtain ⟨m3, e, h1, h2, h3⟩ := hcall m2 j2 k2
      exact ⟨m3, .arr e, h1, h2, e, rfl, h3⟩)
    (by
      rintro m m' e stk' own' ⟨a, rfl, q⟩ hk hi hl
      exact ⟨a, rfl, hQ q hk hi (hl a (by simp [V.ptr]))⟩)
  exact ⟨m', a, e, by simpa [V.ptr] using i, q⟩

theorem newHeap_char [Env α] {s : State α} {own : List Addr} (hi : Inv s own) {n : Nat} (hn : n + 1 ≤ 2 ^ 30) :
    ∃ o : Obj α, newHeap n (some .char) s = .ok s.mem.length ⟨s.mem ++ [some o], s.stk⟩ ∧ Inv ⟨s.mem ++ [some o], s.stk⟩ (s.mem.length :: own) := by
  obtain ⟨cells, h1, -⟩ := resizeObj_run (o := (⟨.char, 0, 1, []⟩ : Obj α)) (m := n) ⟨by simp, by simp⟩ (by intro c hc; exact absurd hc List.not_mem_nil) hn
  have hrun : newHeap n (some .char) s = .ok s.mem.length ⟨s.mem ++ [some ⟨.char, n, 1, cells⟩], s.stk⟩ := by
    unfold newHeap
    have : liftO (resizeObj (⟨.char, 0, 1, []⟩ : Obj α) n) s = .ok ⟨.char, n, 1, cells⟩ s := by rw [h1]; rfl
    exact (bind_eq this).trans rfl
  exact ⟨_, hrun, (newHeap_ok hrun hi).1⟩

/-- C121: `toupper(x)` of a string is a new string; `x` and all other arrays are as they were. -/
theorem case_new_string [Env α] {f : α → α} {s : State α} (hr : Reach s) {n : Nat} {w : V α} (hw : Stands s n w) {xs : List α} {fp : List Addr} (h : IsTree s.mem w (.nums .char xs) fp)
    (hfit : Fits xs) {d : Nat} (hd : 1 ≤ d) :
    ∃ s' b, strNew (mapCase f) d n s = .ok (.arr b) s' ∧ s'.stk = s.stk ∧ IsTree s'.mem (.arr b) (.nums .char (xs.map f)) [b] ∧ New s [b] ∧ Stands s' n w ∧
      IsTree s'.mem w (.nums .char xs) fp ∧ AllSame s s' := by
  obtain ⟨own, hi⟩ := reach_inv hr
  have h0 := h
  cases h with
  | @nums a o _ _ h1 h2 h3 =>
    obtain ⟨v, hv, hD⟩ := stands_deno hi hw id
    have hvs : ∀ b ∈ v.ptr.toList, b ∈ stkPtrs s.stk := fun b hb => mem_stkPtrs hv hb
    have hfit' : xs.length + 1 ≤ 2 ^ 30 := by have : xs.length + 2 ≤ 2 ^ 30 := hfit; omega
    obtain ⟨d, rfl⟩ : ∃ e, d = e + 1 := ⟨d - 1, by omega⟩
    obtain ⟨ob, n1, i1⟩ := newHeap_char hi (n := xs.length) hfit'
    have hk1 : Kept s.mem (s.mem ++ [some ob]) := ⟨by simp, fun b o' _ hb ho => by
      rw [List.getElem?_append_left hb] at ho
      exact ⟨o', ho, rfl, rfl, rfl⟩⟩
    obtain ⟨m', e, e1, i2, q1, q2, q3, q4⟩ := strNew_run (S := mapCase f) (d := d + 1) (ob := ob) (own := own) hv hD h1 (by rw [h3.2.1, h3.1]; exact n1) i1
      (Q := fun mem b => (∃ ob, mem[b]? = some (some ob) ∧ Elements ob .char (xs.map f)) ∧ s.mem.length ≤ b ∧ b ≠ s.mem.length ∧ Kept s.mem mem) (fun m2 j2 k2 => by
        have hs2 : (s.stk ++ [(.arr s.mem.length : V α)])[s.stk.length]? = some (.arr s.mem.length) := by simp
        have hD2 : Deno m2 v (.arr a) := hD.kept (hk1.trans k2) (fun _ _ _ => id) fun b hb => j2.stk_live (up_stk _ (hvs b hb))
        have hal := lt_of_alive h1
        obtain ⟨rca, ha2⟩ : Is m2 a o.kind o.size o.cells := Is.kept ⟨o.rc, h1⟩ (hk1.trans k2) id (hD2.live j2 fun b hb => up_stk _ (hvs b hb))
        obtain ⟨m3, o3, e3, j3, g1, g2, k3⟩ := mapCase_plain (f := f) j2 hD2 hs2 id (by simp; omega) ha2 h3
          (fun b hb => by simp only [set_last]; exact up_stk _ (hvs b hb)) hfit'
        simp only [set_last] at e3 j3
        have hl2 : s.mem.length < m2.length := by have := k2.1; simp at this; omega
        refine ⟨m3, m2.length, ?_, j3, ⟨o3, g1, g2⟩, by omega, by omega, (hk1.trans k2).trans k3⟩
        unfold strCall
        rw [bind_eq (atypeV_deno hD2 ha2), if_pos h3.1]
        exact e3)
      (by
        rintro m m' e stk' own' ⟨⟨o1, q1, q2⟩, q3, q3', q4⟩ hk hi hl
        obtain ⟨rc, g⟩ : Is m' e o1.kind o1.size o1.cells := Is.kept ⟨o1.rc, q1⟩ hk id hl
        exact ⟨⟨_, g, q2⟩, q3, q3', q4.trans hk⟩)
    obtain ⟨o2, g1, g2⟩ := q1
    exact ⟨_, e, e1, rfl, .nums g1 h2 g2, by simpa [New] using q2, (still hi hw h0 q4 i2 rfl).1, (still hi hw h0 q4 i2 rfl).2, all_same q4⟩

/-- A new array of new strings, made from an array or a map. -/
theorem case_new_node [Env α] {f : α → α} {s : State α} {own : List Addr} (hi : Inv s own) {n : Nat} {v : V α} (hv : s.stk[n]? = some v) {a : Addr} (hD : Deno s.mem v (.arr a)) {o : Obj α}
    (ho : s.mem[a]? = some (some o)) (hk : Holds o.kind) {as : List Addr} {xss : List (List α)} (hla : as.length = o.size) (hlx : xss.length = o.size)
    (hca : ∀ (i : Nat) (q : Addr), as[i]? = some q → ∃ c, o.cells[i]? = some c ∧ c.get false = some (.arr q))
    (hel : ∀ (i : Nat) (q : Addr) (xs : List α), as[i]? = some q → xss[i]? = some xs → ∃ o, s.mem[q]? = some (some o) ∧ Elements o .char xs)
    (hfit : ∀ xs ∈ xss, Fits xs) (hn : Fits xss) {d : Nat} (hd : 2 ≤ d) :
    ∃ (s' : State α) (b : Addr) (ob : Obj α) (es : List Addr), strNew (mapCase f) d n s = .ok (.arr b) s' ∧ s'.stk = s.stk ∧ s'.mem[b]? = some (some ob) ∧ ob.kind = o.kind ∧ ob.size = o.size ∧ es.length = o.size ∧
      (∀ (j : Nat) (e : Addr), es[j]? = some e → ob.cells[j]? = some ((freshCell o.kind).put false (.arr e))) ∧
      (∀ (j : Nat) (e : Addr) (xs : List α), es[j]? = some e → xss[j]? = some xs → IsTree s'.mem (.arr e) (.nums .char (xs.map f)) [e]) ∧
      (b :: es).Nodup ∧ New s (b :: es) ∧ ∃ own', Inv s' own' ∧ Kept s.mem s'.mem := by
  have hvs : ∀ b ∈ v.ptr.toList, b ∈ stkPtrs s.stk := fun b hb => mem_stkPtrs hv hb
  obtain ⟨d, rfl⟩ : ∃ e, d = e + 2 := ⟨d - 2, by omega⟩
  have hsz : o.size ≤ 2 ^ 30 := by have : xss.length + 2 ≤ 2 ^ 30 := hn; omega
  obtain ⟨ob, n1, i1, ob1, ob2, ob3⟩ := newHeap_vars hi hk hsz
  have hk1 : Kept s.mem (s.mem ++ [some ob]) := ⟨by simp, fun b o' _ hb ho => by
    rw [List.getElem?_append_left hb] at ho
    exact ⟨o', ho, rfl, rfl, rfl⟩⟩
  have hal := lt_of_alive ho
  obtain ⟨m', b, e1, i2, es, ob', q1, q2, q3, q4, q5, q6, q7, q8, q9⟩ := strNew_run (S := mapCase f) (d := d + 2) (ob := ob) (own := own) hv hD ho n1 i1
    (Q := fun mem b => ∃ (es : List Addr) (ob : Obj α), mem[b]? = some (some ob) ∧ ob.kind = o.kind ∧ ob.size = o.size ∧ es.length = o.size ∧
      (∀ (j : Nat) (e : Addr), es[j]? = some e → ob.cells[j]? = some ((freshCell o.kind).put false (.arr e))) ∧
      (∀ (j : Nat) (e : Addr) (xs : List α), es[j]? = some e → xss[j]? = some xs → ∃ o, mem[e]? = some (some o) ∧ Elements o .char (xs.map f)) ∧
      (b :: es).Nodup ∧ (∀ e ∈ b :: es, s.mem.length ≤ e) ∧ Kept s.mem mem) (fun m2 j2 k2 => by
      have hs2 : (s.stk ++ [(.arr s.mem.length : V α)])[s.stk.length]? = some (.arr s.mem.length) := by simp
      have hvs2 : ∀ b ∈ v.ptr.toList, b ∈ stkPtrs (s.stk ++ [(.arr s.mem.length : V α)]) := fun b hb => up_stk _ (hvs b hb)
      have k02 : Kept s.mem m2 := hk1.trans k2
      have hD2 : Deno m2 v (.arr a) := hD.kept k02 (fun _ _ _ => id) fun b hb => j2.stk_live (hvs2 b hb)
      have ha2 : Is m2 a o.kind o.size o.cells := Is.kept ⟨o.rc, ho⟩ k02 id (hD2.live j2 hvs2)
      have hb2 : Is m2 s.mem.length ob.kind ob.size ob.cells := Is.kept (m1 := s.mem ++ [some ob]) ⟨ob.rc, by simp⟩ k2 id (j2.stk_live (mem_stkPtrs hs2 (by simp [V.ptr])))
      rw [ob1, ob2] at hb2
      obtain ⟨m3, es, cells, e3, j3, k3, g1, ⟨rc3, g2⟩, g3, g4, g5, g6⟩ := strCall_new (f := f) j2 hD2 hvs2 (b := s.mem.length) (as := as) (xss := xss) ha2 hk (by omega)
        (by
          rintro p j rfl rfl
          cases hD with
          | var h1 _ _ _ _ => obtain ⟨rc, h1⟩ := h1; exact absurd (lt_of_alive h1) (Nat.lt_irrefl _)) hla hlx hca
        (fun i q xs hq hx => by
          obtain ⟨oq, h1, h2⟩ := hel i q xs hq hx
          obtain ⟨c, c1, c2⟩ := hca i q hq
          obtain ⟨rc, h3⟩ : Is m2 q oq.kind oq.size oq.cells := Is.kept ⟨oq.rc, h1⟩ k02 id (j2.cell_live ha2 (List.mem_of_getElem? c1) (Cell.get_ptrs c2 (by simp [V.ptr])))
          exact ⟨_, h3, h2⟩)
        (fun xs hx => by have : xs.length + 2 ≤ 2 ^ 30 := hfit xs hx; omega) hs2 hb2 ob3 d
      have hl2 : s.mem.length < m2.length := by have := k2.1; simp at this; omega
      refine ⟨m3, s.mem.length, e3, j3, es, _, g2, rfl, rfl, g1, g3, g4, List.nodup_cons.2 ⟨fun h => ?_, g5⟩, fun e he => ?_, (k02.oth.trans k3).fresh (by intro b hb h; omega)⟩
      · have : m2.length ≤ _ := g6 _ h
        omega
      · rcases List.mem_cons.1 he with rfl | he
        · exact Nat.le_refl _
        · have : m2.length ≤ _ := g6 _ he
          omega)
    (by
      rintro m m' b stk' own' ⟨es, o1, q1, q2, q3, q4, q5, q6, q7, q8, q9⟩ hk' hi hl
      have his : Is m' b o1.kind o1.size o1.cells := Is.kept ⟨o1.rc, q1⟩ hk' id hl
      obtain ⟨rc, g⟩ := id his
      refine ⟨es, _, g, q2, q3, q4, q5, fun j e xs he hx => ?_, q7, q8, q9.trans hk'⟩
      obtain ⟨o2, h1, h2⟩ := q6 j e xs he hx
      have hl : Live m' e := hi.cell_live his (List.mem_of_getElem? (q5 j e he)) (Cell.get_ptrs (Cell.get_put (fresh_get o.kind hk) _) (by simp [V.ptr]))
      obtain ⟨rc, h3⟩ : Is m' e o2.kind o2.size o2.cells := Is.kept ⟨o2.rc, h1⟩ hk' id hl
      exact ⟨_, h3, h2⟩)
  refine ⟨_, b, ob', es, e1, rfl, q1, q2, q3, q4, q5, fun j e xs he hx => ?_, q7, q8, _, i2, q9⟩
  obtain ⟨o2, h1, h2⟩ := q6 j e xs he hx
  exact .nums h1 ⟨by decide, by decide⟩ h2

theorem flatten_single : ∀ es : List Addr, (es.map fun e => [e]).flatten = es
  | [] => rfl
  | e :: es => by rw [List.map_cons, List.flatten_cons, flatten_single es]; rfl

theorem all_arrays {vs : List (V α)} (h : ∀ v ∈ vs, ∃ q, v = .arr q) : ∃ as : List Addr, vs = as.map V.arr := by
  induction vs with
  | nil => exact ⟨[], rfl⟩
  | cons v vs ih =>
    obtain ⟨q, rfl⟩ := h v (by simp)
    obtain ⟨as, rfl⟩ := ih fun v hv => h v (List.mem_cons_of_mem _ hv)
    exact ⟨q :: as, rfl⟩

/-- The strings of an array of strings. -/
theorem strings_addrs {mem : List (Option (Obj α))} {vs : List (V α)} {xss : List (List α)} {fs : List (List Addr)} (h1 : vs.length = xss.length) (h2 : fs.length = xss.length)
    (h : ∀ (i : Nat) (v : V α) (t : Nested α) (f : List Addr), vs[i]? = some v → (xss.map (Nested.nums .char))[i]? = some t → fs[i]? = some f → IsTree mem v t f) :
    ∃ as : List Addr, as.length = xss.length ∧ vs = as.map V.arr ∧ ∀ (i : Nat) (q : Addr) (xs : List α), as[i]? = some q → xss[i]? = some xs → ∃ o, mem[q]? = some (some o) ∧ Elements o .char xs := by
  have key : ∀ i, i < xss.length → ∃ q, vs[i]? = some (.arr q) ∧ ∀ xs, xss[i]? = some xs → ∃ o, mem[q]? = some (some o) ∧ Elements o .char xs := by
    intro i hi
    have hv : vs[i]? = some vs[i] := List.getElem?_eq_getElem (by omega)
    have ht := h i _ _ _ hv (by rw [List.getElem?_map, List.getElem?_eq_getElem hi]; rfl) (List.getElem?_eq_getElem (by omega))
    generalize vs[i] = v at hv ht
    generalize fs[i]'(by omega) = g at ht
    generalize hx : xss[i] = ys at ht
    cases ht with
    | @nums a o k xs g1 g2 g3 =>
      refine ⟨a, hv, fun ys hy => ?_⟩
      rw [List.getElem?_eq_getElem hi, hx] at hy
      cases hy
      exact ⟨o, g1, g3⟩
  obtain ⟨as, rfl⟩ := all_arrays (vs := vs) fun v hv => by
    obtain ⟨i, hi⟩ := List.getElem?_of_mem hv
    obtain ⟨q, hq, -⟩ := key i (by have := (List.getElem?_eq_some_iff.1 hi).1; omega)
    rw [hi] at hq
    exact ⟨q, by cases hq; rfl⟩
  refine ⟨as, by simpa using h1, rfl, fun i q xs hq hx => ?_⟩
  obtain ⟨q', g1, g2⟩ := key i (List.getElem?_eq_some_iff.1 hx).1
  rw [List.getElem?_map, hq] at g1
  cases g1
  exact g2 xs hx

/-- C121: `toupper(x)` of an array of strings is a new array of new strings; `x` and all other arrays are as they were.
    Missing: arrays nested deeper, which are refused (`case_new_nested_throws`). -/
theorem case_new_list_partial [Env α] {f : α → α} {s : State α} (hr : Reach s) {n : Nat} {w : V α} (hw : Stands s n w) {xss : List (List α)} {fp : List Addr}
    (h : IsTree s.mem w (.list (xss.map (.nums .char))) fp) (hfit : ∀ xs ∈ xss, Fits xs) (hn : Fits xss) {d : Nat} (hd : 2 ≤ d) :
    ∃ s' b fp', strNew (mapCase f) d n s = .ok (.arr b) s' ∧ s'.stk = s.stk ∧ IsTree s'.mem (.arr b) (.list (xss.map fun xs => .nums .char (xs.map f))) fp' ∧ fp'.Nodup ∧ New s fp' ∧ Stands s' n w ∧ IsTree s'.mem w (.list (xss.map (.nums .char))) fp ∧ AllSame s s' := by
  obtain ⟨own, hi⟩ := reach_inv hr
  have h0 := h
  cases h with
  | @list a o vs _ fs h1 h2 h3 h4 h5 h6 h7 =>
    obtain ⟨v, hv, hD⟩ := stands_deno hi hw id
    simp only [List.length_map] at h3 h4 h5
    obtain ⟨as, a1, rfl, a3⟩ := strings_addrs h4 h5 h7
    obtain ⟨s', b, ob, es, e1, e2, g1, g2, g3, g4, g5, g6, g7, g8, own', g9, g10⟩ := case_new_node (f := f) hi hv hD h1 (.inl h2) (as := as) (xss := xss) (by omega) (by omega)
      (fun i q hq => ⟨_, h6 i (.arr q) (by rw [List.getElem?_map, hq]; rfl), rfl⟩) a3 hfit hn hd
    have hflat := flatten_single es
    refine ⟨s', b, b :: (es.map fun e => [e]).flatten, e1, e2, .list (vs := es.map .arr) g1 (g2.trans h2) (by simp; omega) (by simp; omega) (by simp; omega) (fun i w hw => ?_) (fun i w t fl q1 q2 q3 => ?_),
      by rw [hflat]; exact g7, by rw [hflat]; exact g8, (still hi hw h0 g10 g9 e2).1, (still hi hw h0 g10 g9 e2).2, all_same g10⟩
    · rw [List.getElem?_map] at hw
      obtain ⟨e, he, rfl⟩ := Option.map_eq_some_iff.1 hw
      rw [g5 i e he, h2]
      rfl
    · rw [List.getElem?_map] at q1 q2 q3
      obtain ⟨e, he, rfl⟩ := Option.map_eq_some_iff.1 q1
      obtain ⟨xs, hx, rfl⟩ := Option.map_eq_some_iff.1 q2
      rw [he] at q3
      cases q3
      exact g6 i e xs he hx

/-- C121: of a map of strings it is a map with the new strings as values, in the same order, but with nil for every key. -/

theorem case_new_map [Env α] {f : α → α} {s : State α} (hr : Reach s) {n : Nat} {w : V α} (hw : Stands s n w) {ks : List (V α)} {xss : List (List α)} {fp : List Addr}
    (h : IsTree s.mem w (.map ks (xss.map (.nums .char))) fp) (hfit : ∀ xs ∈ xss, Fits xs) (hn : Fits xss) {d : Nat} (hd : 2 ≤ d) :
    ∃ s' b fp', strNew (mapCase f) d n s = .ok (.arr b) s' ∧ s'.stk = s.stk ∧ IsTree s'.mem (.arr b) (.map (ks.map fun _ => .nil) (xss.map fun xs => .nums .char (xs.map f))) fp' ∧ fp'.Nodup ∧
      New s fp' ∧ Stands s' n w ∧ IsTree s'.mem w (.map ks (xss.map (.nums .char))) fp ∧ AllSame s s' := by
  obtain ⟨own, hi⟩ := reach_inv hr
  have h0 := h
  cases h with
  | @map a o _ vs _ fs h1 h2 h3 h3' h4 h5 h6 h7 =>
    obtain ⟨v, hv, hD⟩ := stands_deno hi hw id
    simp only [List.length_map] at h3 h3' h4 h5
    obtain ⟨as, a1, rfl, a3⟩ := strings_addrs h4 h5 h7
    obtain ⟨s', b, ob, es, e1, e2, g1, g2, g3, g4, g5, g6, g7, g8, own', g9, g10⟩ := case_new_node (f := f) hi hv hD h1 (.inr h2) (as := as) (xss := xss) (by omega) (by omega)
      (fun i q hq => ⟨_, h6 i (ks[i]'(by have := (List.getElem?_eq_some_iff.1 hq).1; omega)) (.arr q) (List.getElem?_eq_getElem _) (by rw [List.getElem?_map, hq]; rfl), rfl⟩) a3 hfit hn hd
    have hflat := flatten_single es
    refine ⟨s', b, b :: (es.map fun e => [e]).flatten, e1, e2, .map (vs := es.map .arr) g1 (g2.trans h2) (by simp; omega) (by simp; omega) (by simp; omega) (by simp; omega) (fun i k w hk hw => ?_)
      (fun i w t fl q1 q2 q3 => ?_), by rw [hflat]; exact g7, by rw [hflat]; exact g8, (still hi hw h0 g10 g9 e2).1, (still hi hw h0 g10 g9 e2).2, all_same g10⟩
    · rw [List.getElem?_map] at hw hk
      obtain ⟨e, he, rfl⟩ := Option.map_eq_some_iff.1 hw
      obtain ⟨k', hk', rfl⟩ := Option.map_eq_some_iff.1 hk
      rw [g5 i e he, h2]
      rfl
    · rw [List.getElem?_map] at q1 q2 q3
      obtain ⟨e, he, rfl⟩ := Option.map_eq_some_iff.1 q1
      obtain ⟨xs, hx, rfl⟩ := Option.map_eq_some_iff.1 q2
      rw [he] at q3
      cases q3
      exact g6 i e xs he hx

/-! ## Replacing -/

theorem strTo_self [Env α] {S : StrFn α} {d : Nat} {s : State α} {own : List Addr} {n : Nat} {v w : V α} (hv : s.stk[n]? = some v) {m1 : List (Option (Obj α))}
    (h : strCall S d true v (.slot n) s = .ok () ⟨m1, s.stk.set n w⟩) (hi : Inv ⟨m1, s.stk.set n w⟩ own) :
    ∃ m2, strTo S d n n s = .ok w ⟨m2, s.stk.set n w⟩ ∧ Inv ⟨m2, s.stk.set n w⟩ (w.ptr.toList ++ own) ∧ Kept m1 m2 := by
  have hs : (s.stk.set n w)[n]? = some w := List.getElem?_set_self (List.getElem?_eq_some_iff.1 hv).1
  obtain ⟨m2, e2, i2, k2, l2⟩ := attach_tot (s := ⟨m1, s.stk.set n w⟩) hi (v := w) (fun b hb => hi.stk_live (mem_stkPtrs hs hb))
  refine ⟨m2, ?_, i2, k2⟩
  unfold strTo
  refine (bind_eq (readSlot hv)).trans ?_
  rw [decide_eq_true rfl]
  refine (bind_eq h).trans ?_
  refine (bind_eq (readSlot (s := ⟨m1, s.stk.set n w⟩) hs)).trans ?_
  unfold copyV
  exact (bind_eq e2).trans rfl

/-- C122: `x.replace(re, str)` of a string gives `x` a new string; all that shared the old one keep it, and no array changes. -/
theorem replace_string [Env α] {re : List α → List α} {s : State α} (hr : Reach s) {n : Nat} {w : V α} (hw : s.stk[n]? = some w) {xs : List α} {fp : List Addr}
    (h : IsTree s.mem w (.nums .char xs) fp) (hfit : Fits (re xs)) {d : Nat} (hd : 1 ≤ d) :
    ∃ s' b, strTo (replaceIn re) d n n s = .ok (.arr b) s' ∧ s'.stk = s.stk.set n (.arr b) ∧ IsTree s'.mem (.arr b) (.nums .char (re xs)) [b] ∧ New s [b] ∧ AllSame s s' := by
  obtain ⟨own, hi⟩ := reach_inv hr
  cases h with
  | @nums a o _ _ h1 h2 h3 =>
    obtain ⟨d, rfl⟩ : ∃ e, d = e + 1 := ⟨d - 1, by omega⟩
    have hD : Deno s.mem (.arr a) (.arr a) := .self id
    obtain ⟨ob, n1, n2, i1, k1⟩ := newStr_tot hi (re xs) (by have : (re xs).length + 2 ≤ 2 ^ 30 := hfit; omega)
    obtain ⟨m2, e2, i2, k2⟩ := assignSlot_tot (s := ⟨s.mem ++ [some ob], s.stk⟩) (v := .arr s.mem.length) (w := .arr s.mem.length) (own := own) (by simpa [V.ptr] using i1) hw id (.self id)
    obtain ⟨m3, e3, i3, k3⟩ := strTo_self (S := replaceIn re) (d := d + 1) hw (m1 := m2) (w := .arr s.mem.length) (own := own) (by
      unfold strCall
      rw [bind_eq (atypeV_deno hD h1), if_pos h3.1]
      unfold replaceIn
      rw [bind_eq (textV_run hD h1 h3)]
      refine (bind_eq n1).trans ?_
      unfold assign
      refine (bind_eq (readSlot (s := ⟨s.mem ++ [some ob], s.stk⟩) hw)).trans ?_
      exact e2) i2
    obtain ⟨rc, g⟩ : Is m3 s.mem.length ob.kind ob.size ob.cells := Is.kept (m1 := s.mem ++ [some ob]) ⟨ob.rc, by simp⟩ (k2.trans k3) id (i3.own_live (by simp [V.ptr]))
    exact ⟨_, _, e3, rfl, .nums g h2 n2, by simp [New], all_same ((k1.trans k2).trans k3)⟩

/-- C122: of an array or a map it replaces every string, at any depth, by a new one.  The arrays that hold the strings are the same ones as before, so that all that share them see the
    change; the old strings, and all other arrays, are as they were.
    Missing: data in which an array occurs at two places, where strings are replaced twice (`replace_shared_twice`). -/
theorem replace_nested_partial [Env α] {re : List α → List α} {s : State α} (hr : Reach s) {n : Nat} {v w : V α} (hv : s.stk[n]? = some v) (hw : Stands s n w) {t : Nested α} {fp : List Addr}
    (h : IsTree s.mem w t fp) (hns : ∀ k xs, t ≠ .nums k xs) (hv' : ∀ b i, v = .ref b i → b ∉ fp) (hnd : fp.Nodup) (hs : t.Strings fun xs => Fits (re xs)) {d : Nat} (hd : t.depth ≤ d) :
    ∃ s' fp', strTo (replaceIn re) d n n s = .ok v s' ∧ s'.stk = s.stk ∧ Stands s' n w ∧ IsTree s'.mem w (t.mapText re) fp' ∧ (∀ b ∈ fp', b ∈ fp ∨ s.mem.length ≤ b) ∧ Beside s s' fp := by
  obtain ⟨own, hi⟩ := reach_inv hr
  obtain ⟨a, rfl⟩ := strings_arr h hs
  obtain ⟨v1, hv1, hD⟩ := stands_deno hi hw id
  rw [hv] at hv1
  cases hv1
  have hvs : ∀ b ∈ v.ptr.toList, b ∈ stkPtrs s.stk := fun b hb => mem_stkPtrs hv hb
  have hlt := (List.getElem?_eq_some_iff.1 hv).1
  have hset : s.stk.set n v = s.stk := by
    apply List.ext_getElem?
    intro b
    by_cases hb : n = b
    · subst hb; rw [List.getElem?_set_self hlt, hv]
    · rw [List.getElem?_set_ne hb]
  obtain ⟨d, rfl⟩ : ∃ e, d = e + 1 := ⟨d - 1, by have := depth_pos t; omega⟩
  obtain ⟨m1, fp', e1, i1, t1, s1, k1⟩ := rep_tree (same := true) (repOk re d) hi hD hv h hns hv' hnd (strings_mono hs fun xs hx => by have : (re xs).length + 2 ≤ 2 ^ 30 := hx; omega) hd
  obtain ⟨m2, e2, i2, k2⟩ := strTo_self (S := replaceIn re) (d := d + 1) hv (m1 := m1) (w := v) (own := own) (by rw [hset]; exact e1) (by rw [hset]; exact i1)
  rw [hset] at e2 i2
  have k12 : Oth (· ∈ fp) s.mem m2 := k1.trans k2.oth
  have hD2 : Deno m2 v (.arr a) := hD.kept k12 hv' fun b hb => i2.stk_live (hvs b hb)
  exact ⟨_, fp', e2, rfl, deno_stands (s := ⟨m2, s.stk⟩) hv hD2, isTree_kept k2 i2 t1 (by simpa [V.ptr] using hD2.live i2 hvs) fun _ _ => id, s1, beside k12 (tree_live h)⟩

/-! ## Searching -/

/-- C123: what `search` and `match` find in a string is a new array of new strings: what has been matched and the groups; if nothing has been found it is nil.  The string and all arrays
    are as they were. -/
theorem find_string [Env α] {re : List α → Option (List (Nat × Nat))} {s : State α} (hr : Reach s) {n : Nat} {w : V α} (hw : Stands s n w) {xs : List α} {fp : List Addr}
    (h : IsTree s.mem w (.nums .char xs) fp) (hfit : Fits xs) {d : Nat} (hd : 1 ≤ d) :
    (re xs = none → ∃ s', strNew (findIn re) d n s = .ok .nil s' ∧ s'.stk = s.stk ∧ Stands s' n w ∧ IsTree s'.mem w (.nums .char xs) fp ∧ AllSame s s') ∧
    ∀ ms, re xs = some ms → ms ≠ [] → Fits ms → (∀ m ∈ ms, m.1 + m.2 ≤ xs.length) → ∃ s' b fp', strNew (findIn re) d n s = .ok (.arr b) s' ∧ s'.stk = s.stk ∧
      IsTree s'.mem (.arr b) (.list (ms.map fun m => .nums .char ((xs.drop m.1).take m.2))) fp' ∧ fp'.Nodup ∧ New s fp' ∧ Stands s' n w ∧ IsTree s'.mem w (.nums .char xs) fp ∧ AllSame s s' := by
  obtain ⟨own, hi⟩ := reach_inv hr
  have h0 := h
  cases h with
  | @nums a o _ _ h1 h2 h3 =>
    obtain ⟨v, hv, hD⟩ := stands_deno hi hw id
    have hvs : ∀ b ∈ v.ptr.toList, b ∈ stkPtrs s.stk := fun b hb => mem_stkPtrs hv hb
    have hfit' : xs.length + 1 ≤ 2 ^ 30 := by have : xs.length + 2 ≤ 2 ^ 30 := hfit; omega
    obtain ⟨d, rfl⟩ : ∃ e, d = e + 1 := ⟨d - 1, by omega⟩
    obtain ⟨ob, n1, i1⟩ := newHeap_char hi (n := xs.length) hfit'
    have hk1 : Kept s.mem (s.mem ++ [some ob]) := ⟨by simp, fun b o' _ hb ho => by
      rw [List.getElem?_append_left hb] at ho
      exact ⟨o', ho, rfl, rfl, rfl⟩⟩
    -- up to the loop
    have hgo : ∀ m2, Inv ⟨m2, s.stk ++ [.arr s.mem.length]⟩ own → Kept (s.mem ++ [some ob]) m2 → ∃ m3, Inv ⟨m3, s.stk ++ [.nil]⟩ own ∧ Kept s.mem m3 ∧ Deno m3 v (.arr a) ∧ (∃ o : Obj α, m3[a]? = some (some o) ∧ Elements o .char xs) ∧
        strCall (findIn re) (d + 1) false v (.slot s.stk.length) ⟨m2, s.stk ++ [.arr s.mem.length]⟩ =
          (match re xs with | none => pure () | some ms => putMatches (some a) (.slot s.stk.length) 0 ms : M α Unit) ⟨m3, s.stk ++ [.nil]⟩ := by
      intro m2 j2 k2
      have hs2 : (s.stk ++ [(.arr s.mem.length : V α)])[s.stk.length]? = some (.arr s.mem.length) := by simp
      have hD2 : Deno m2 v (.arr a) := hD.kept (hk1.trans k2) (fun _ _ _ => id) fun b hb => j2.stk_live (up_stk _ (hvs b hb))
      obtain ⟨rca, ha2⟩ : Is m2 a o.kind o.size o.cells := Is.kept ⟨o.rc, h1⟩ (hk1.trans k2) id (hD2.live j2 fun b hb => up_stk _ (hvs b hb))
      obtain ⟨m3, e3, i3, k3⟩ := assignSlot_tot (s := ⟨m2, s.stk ++ [.arr s.mem.length]⟩) (v := .nil) (w := .nil) (own := own) (by simpa [V.ptr] using j2) hs2 id (.self id)
      simp only [set_last] at e3 i3
      have k03 : Kept s.mem m3 := Kept.oth (Oth.trans (Kept.oth (Oth.trans hk1 k2)) k3)
      have hD3 : Deno m3 v (.arr a) := hD.kept k03 (fun _ _ _ => id) fun b hb => i3.stk_live (up_stk _ (hvs b hb))
      obtain ⟨rcb, ha3⟩ : Is m3 a o.kind o.size o.cells := Is.kept ⟨o.rc, h1⟩ k03 id (hD3.live i3 fun b hb => up_stk _ (hvs b hb))
      refine ⟨m3, i3, k03, hD3, ⟨_, ha3, h3⟩, ?_⟩
      unfold strCall
      rw [bind_eq (atypeV_deno hD2 ha2), if_pos h3.1]
      unfold findIn
      refine (bind_eq (heapOf_deno hD2)).trans ?_
      refine (bind_eq (textV_run hD2 ha2 (show Elements ⟨o.kind, o.size, rca, o.cells⟩ .char xs from h3))).trans ?_
      refine (bind_eq (b := ()) (s1 := ⟨m3, s.stk ++ [.nil]⟩) ?_).trans rfl
      unfold assign
      refine (bind_eq (readSlot (s := ⟨m2, s.stk ++ [.arr s.mem.length]⟩) hs2)).trans ?_
      exact e3
    constructor
    · intro hre
      obtain ⟨m', r, e1, i2, rfl, q⟩ := strNew_val (S := findIn re) (d := d + 1) (ob := ob) (own := own) hv hD h1 (by rw [h3.2.1, h3.1]; exact n1) i1
        (Q := fun mem r => r = .nil ∧ Kept s.mem mem) (fun m2 j2 k2 => by
          obtain ⟨m3, i3, k3, -, -, e⟩ := hgo m2 j2 k2
          rw [hre] at e
          exact ⟨m3, .nil, e, i3, rfl, k3⟩)
        (by
          rintro m m' e stk' own' ⟨rfl, q⟩ hk hi hl
          exact ⟨rfl, Kept.oth (Oth.trans q hk)⟩)
      exact ⟨_, e1, rfl, (still hi hw h0 q i2 rfl).1, (still hi hw h0 q i2 rfl).2, all_same q⟩
    · intro ms hre hms hfm hfs
      have hfm' : ms.length + 2 ≤ 2 ^ 30 := hfm
      obtain ⟨m', r, e1, i2, b, es, cells, rfl, q1, q2, q3, q4, q5, q6⟩ := strNew_val (S := findIn re) (d := d + 1) (ob := ob) (own := own) hv hD h1 (by rw [h3.2.1, h3.1]; exact n1) i1
        (Q := fun mem r => ∃ (b : Addr) (es : List Addr) (cells : List (Cell α)), r = .arr b ∧ Is mem b .var ms.length cells ∧
          (∀ (j : Nat) (e : Addr), es[j]? = some e → cells[j]? = some (.var (.arr e))) ∧ Texts mem es (ms.map (cut xs)) ∧ (b :: es).Nodup ∧ (∀ e ∈ b :: es, s.mem.length ≤ e) ∧ Kept s.mem mem) (fun m2 j2 k2 => by
          obtain ⟨m3, i3, k3, hD3, hq3, e⟩ := hgo m2 j2 k2
          rw [hre] at e
          obtain ⟨m4, b, cells, es, e4, i4, g1, g2, g3, g4, g5, k4⟩ := putMatches_first hms i3 (x := s.stk.length) (by simp) (by omega) hfs hfit' hD3 (fun b hb => up_stk _ (hvs b hb)) hq3
          simp only [set_last] at e4 i4
          have hl3 : s.mem.length ≤ m3.length := k3.1
          exact ⟨m4, .arr b, e.trans e4, i4, b, es, cells, rfl, g1, g2, g3, g4, fun e he => by have : m3.length ≤ e := g5 e he; omega, Kept.oth (Oth.trans k3 k4)⟩)
        (by
          rintro m m' e stk' own' ⟨b, es, cells, rfl, q1, q2, q3, q4, q5, q6⟩ hk hi hl
          have q1' := q1.kept hk id (hl b (by simp [V.ptr]))
          refine ⟨b, es, cells, rfl, q1', q2, ⟨q3.1, fun i e ys he hy => ?_⟩, q4, q5, Kept.oth (Oth.trans q6 hk)⟩
          obtain ⟨oe, g1, g2⟩ := q3.2 i e ys he hy
          obtain ⟨rc, g⟩ : Is m' e oe.kind oe.size oe.cells := Is.kept ⟨oe.rc, g1⟩ hk id (hi.cell_live q1' (List.mem_of_getElem? (q2 i e he)) (by simp [Cell.ptrs, V.ptr]))
          exact ⟨_, g, g2⟩)
      obtain ⟨rc, g⟩ := q1
      have hl := q3.1
      refine ⟨_, b, b :: (es.map fun e => [e]).flatten, e1, rfl, ?_, by rw [flatten_single]; exact q4, by rw [flatten_single]; exact q5, (still hi hw h0 q6 i2 rfl).1, (still hi hw h0 q6 i2 rfl).2, all_same q6⟩
      refine .list (vs := es.map .arr) g rfl (by simp [hl]) (by simp [hl]) (by simp [hl]) (fun i u hu => ?_) fun i u t f hu ht hf => ?_
      · rw [List.getElem?_map] at hu
        obtain ⟨e, he, rfl⟩ := Option.map_eq_some_iff.1 hu
        exact q2 i e he
      · rw [List.getElem?_map] at hu ht hf
        obtain ⟨e, he, rfl⟩ := Option.map_eq_some_iff.1 hu
        obtain ⟨m, hm, rfl⟩ := Option.map_eq_some_iff.1 ht
        rw [he] at hf
        cases hf
        obtain ⟨oe, g1, g2⟩ := q3.2 i e (cut xs m) he (by rw [List.getElem?_map, hm]; rfl)
        exact .nums g1 h2 g2

/-! ## What does not hold -/

theorem at_num_zero [Env α] (k : Kind) (x : α) (s : State α) : at' (.num k x) 0 s = .ok (.num k x) s := by
  simp only [bind_run, M.bind, pure_run, at', attachV, V.ptr, withVar, dereference, readTemp]
  simp [bind_run, M.bind, detachV, V.ptr, getMem, release, liftO, setMem, copyV, attachV, pure_run]

theorem withVar_diverge {v : V α} {f : Loc → M α β} {s : State α} (h : f (.slot s.stk.length) { s with stk := s.stk ++ [v] } = .diverge) : withVar v f s = .diverge := by
  unfold withVar
  simp only [h]

theorem bind_diverge {m : M α β} {f : β → M α γ} {s : State α} (h : m s = .diverge) : (m >>= f) s = .diverge := by
  show M.bind _ _ _ = _
  unfold M.bind
  rw [h]

/-- A number is an array of itself, without end. -/
theorem strCall_number [Env α] (S : StrFn α) {k : Kind} (hk : k ≠ .char) (x : α) (d : Nat) :
    ∀ {s : State α} {m : Nat} {same : Bool} {j : Kind} {y : α}, s.stk[m]? = some (.num j y) → strCall S d same (.num k x) (.slot m) s = .diverge := by
  induction d with
  | zero => intros; rfl
  | succ d ih =>
    intro s m same j y hm
    unfold strCall
    refine (bind_eq (show atypeV (.num k x) s = .ok k s from rfl)).trans ?_
    rw [if_neg hk]
    refine (bind_eq (attach_none rfl s)).trans ?_
    refine withVar_diverge ?_
    refine (bind_eq (sizeV_num k x _)).trans ?_
    unfold broadcast
    refine (bind_eq (readSlot (s := { s with stk := s.stk ++ [.num k x] }) (slot_append hm))).trans ?_
    refine (bind_eq (at_num_zero j y _)).trans ?_
    refine bind_diverge (withVar_diverge ?_)
    refine (bind_eq (at_num_zero k x _)).trans ?_
    exact withVar_diverge (ih (j := j) (y := y) (slot_append (by simp)))

/-- C120, C121 fail: for a number that is no character the functions do not end, whatever is done to strings. -/
theorem case_number_diverges [Env α] (S : StrFn α) {s : State α} {n : Nat} {k : Kind} {x : α} (h : s.stk[n]? = some (.num k x)) (hk : k ≠ .char) (d : Nat) :
    strTo S d n n s = .diverge ∧ strNew S d n s = .diverge := by
  constructor
  · unfold strTo
    refine (bind_eq (readSlot h)).trans ?_
    exact bind_diverge (strCall_number S hk x d h)
  · unfold strNew
    refine (bind_eq (readSlot h)).trans ?_
    refine (bind_eq (show heapOf (.num k x) s = .ok none s from rfl)).trans ?_
    simp only
    unfold copyV
    refine (bind_eq (b := .num k x) (s1 := s) ((bind_eq (attach_none rfl s)).trans rfl)).trans ?_
    refine withVar_diverge ?_
    refine (bind_eq (b := ()) (s1 := ⟨s.mem, s.stk ++ [.num k x]⟩) ?_).trans ?_
    · have := assign_nil_num (n := s.stk.length) (s := { s with stk := s.stk ++ [.nil] }) (by simp) k x
      rw [this]
      simp
    · exact bind_diverge (strCall_number S hk x d (s := ⟨s.mem, s.stk ++ [.num k x]⟩) (j := k) (y := x) (by simp))

attribute [local instance] intEnv

example : (final [.decl (.num .int 97)]).stk[0]? = some (.num .int 97) ∧ Kind.int ≠ .char := ⟨by decide +kernel, by decide⟩

/-- Nil is an exception. -/
theorem case_nil_throws [Env α] (S : StrFn α) {s : State α} {n : Nat} (h : s.stk[n]? = some .nil) {d : Nat} (hd : 1 ≤ d) :
    strTo S d n n s = .thrown (.error "var::atype(): Undefined") s := by
  obtain ⟨d, rfl⟩ : ∃ e, d = e + 1 := ⟨d - 1, by omega⟩
  unfold strTo
  refine (bind_eq (readSlot h)).trans ?_
  unfold strCall
  rfl

example : (final [.decl .nil]).stk[0]? = some .nil := by decide +kernel

/-- Upper case, for characters that are numbers of any size. -/
def upper (x : Int) : Int := if 97 ≤ x ∧ x ≤ 122 then x - 32 else x

theorem upper_twice (x : Int) : upper (upper x) = upper x := by
  unfold upper
  grind

/-- A string in memory. -/
theorem str_tree {mem : List (Option (Obj Int))} {a : Addr} {o : Obj Int} (cs : List Int) (h : mem[a]? = some (some o)) (hk : o.kind = .char) (hs : o.size = cs.length)
    (hc : o.cells.take cs.length = cs.map fun x => .raw (some x)) : IsTree mem (.arr a) (.nums .char cs) [a] := by
  refine .nums h (by simp [Number]) ⟨hk, hs, fun i x hx => ?_⟩
  have hlt := (List.getElem?_eq_some_iff.1 hx).1
  have : (o.cells.take cs.length)[i]? = some (.raw (some x)) := by rw [hc, List.getElem?_map, hx]; rfl
  rwa [List.getElem?_take_of_lt hlt] at this

/-- Two elements. -/
theorem two_trees {mem : List (Option (Obj Int))} {v1 v2 : V Int} {t1 t2 : Nested Int} {f1 f2 : List Addr} (h1 : IsTree mem v1 t1 f1) (h2 : IsTree mem v2 t2 f2) :
    ∀ (i : Nat) (v : V Int) (t : Nested Int) (f : List Addr), [v1, v2][i]? = some v → [t1, t2][i]? = some t → [f1, f2][i]? = some f → IsTree mem v t f := by
  intro i v t f hv ht hf
  match i, hv, ht, hf with
  | 0, hv, ht, hf => cases hv; cases ht; cases hf; exact h1
  | 1, hv, ht, hf => cases hv; cases ht; cases hf; exact h2

theorem two_cells {cells : List (Cell Int)} {v1 v2 : V Int} (h1 : cells[0]? = some (.var v1)) (h2 : cells[1]? = some (.var v2)) :
    ∀ (i : Nat) (v : V Int), [v1, v2][i]? = some v → cells[i]? = some (.var v) := by
  intro i v hv
  match i, hv with
  | 0, hv => cases hv; exact h1
  | 1, hv => cases hv; exact h2

/-- `["a", 'b']` -/
def progChar : List (Stmt Int) := [.decl .nil, .push 0 (.str [97]), .push 0 (.num .char 98)]

/-- C120 fails: a character in an array is lost; `["a", 'b']` becomes `["A", ""]`. -/
theorem case_char_lost : ∃ s', strTo (mapCase upper) 2 0 0 (final progChar) = .ok (.arr 1) s' ∧ IsTree s'.mem (.arr 1) (.list [.nums .char [65], .nums .char []]) [1, 0, 2] := by
  refine ⟨⟨[some ⟨.char, 1, 1, [.raw (some 65), .raw (some 0), .raw none, .raw none, .raw none, .raw none, .raw none, .raw none]⟩,
    some ⟨.var, 2, 2, [.var (.arr 0), .var (.arr 2), .var .nil, .var .nil, .var .nil, .var .nil, .var .nil, .var .nil]⟩,
    some ⟨.char, 0, 1, [.raw (some 0), .raw none, .raw none, .raw none, .raw none, .raw none, .raw none, .raw none]⟩], [.arr 1]⟩, by decide +kernel, ?_⟩
  exact .list (vs := [.arr 0, .arr 2]) (fs := [[0], [2]]) rfl rfl rfl rfl rfl (two_cells rfl rfl) (two_trees (str_tree [65] rfl rfl rfl rfl) (str_tree [] rfl rfl rfl rfl))

/-- `["b", ["a", "a"]]` -/
def progDeep : List (Stmt Int) := [.decl .nil, .push 0 (.str [97]), .push 0 (.str [97]), .decl .nil, .push 1 (.str [98]), .push 1 (.name 0)]

/-- C121 fails: arrays in arrays are an exception when a new variable is made, though they are not in place. -/
theorem case_new_nested_throws : (∃ s', strNew (mapCase upper) 3 1 (final progDeep) = .thrown (.error "var::at(): uninitialised") s') ∧
    ∃ s', strTo (mapCase upper) 3 1 1 (final progDeep) = .ok (.arr 4) s' := by
  refine ⟨⟨match strNew (mapCase upper) 3 1 (final progDeep) with | .thrown _ s => s | _ => ⟨[], []⟩, by decide +kernel⟩,
    match strTo (mapCase upper) 3 1 1 (final progDeep) with | .ok _ s => s | _ => ⟨[], []⟩, by decide +kernel⟩

/-- `["b", x, x]` for `x = ["a", "a"]` -/
def progShared : List (Stmt Int) := progDeep ++ [.push 1 (.name 0)]

theorem progShared_tree : IsTree (final progShared).mem (.arr 4) (.list [.nums .char [98], .list [.nums .char [97], .nums .char [97]], .list [.nums .char [97], .nums .char [97]]])
    [4, 3, 1, 0, 2, 1, 0, 2] := by
  have h : (final progShared).mem = [some ⟨.char, 1, 1, .raw (some 97) :: .raw (some 0) :: List.replicate 6 (.raw none)⟩,
      some ⟨.var, 2, 3, .var (.arr 0) :: .var (.arr 2) :: List.replicate 6 (.var .nil)⟩, some ⟨.char, 1, 1, .raw (some 97) :: .raw (some 0) :: List.replicate 6 (.raw none)⟩,
      some ⟨.char, 1, 1, .raw (some 98) :: .raw (some 0) :: List.replicate 6 (.raw none)⟩,
      some ⟨.var, 3, 1, .var (.arr 3) :: .var (.arr 1) :: .var (.arr 1) :: List.replicate 5 (.var .nil)⟩] := by decide +kernel
  have t1 : IsTree (final progShared).mem (.arr 1) (.list [.nums .char [97], .nums .char [97]]) (1 :: [[0], [2]].flatten) := by
    rw [h]
    exact .list (vs := [.arr 0, .arr 2]) rfl rfl rfl rfl rfl (two_cells rfl rfl) (two_trees (str_tree [97] rfl rfl rfl rfl) (str_tree [97] rfl rfl rfl rfl))
  rw [h] at t1 ⊢
  refine .list (vs := [.arr 3, .arr 1, .arr 1]) (fs := [[3], [1, 0, 2], [1, 0, 2]]) rfl rfl rfl rfl rfl (fun i v hv => ?_) fun i v t f hv ht hf => ?_
  · match i, hv with
    | 0, hv => cases hv; rfl
    | 1, hv => cases hv; rfl
    | 2, hv => cases hv; rfl
  · match i, hv, ht, hf with
    | 0, hv, ht, hf => cases hv; cases ht; cases hf; exact str_tree [98] rfl rfl rfl rfl
    | 1, hv, ht, hf => cases hv; cases ht; cases hf; exact t1
    | 2, hv, ht, hf => cases hv; cases ht; cases hf; exact t1

/-- What is found is read from the string after the result has been set to nil: with the same variable as argument and as result it is read from memory that has been freed. -/
theorem find_self_undefined : strTo (findIn fun _ => some [(0, 2)]) 1 0 0 (final progAB) = .ub .useAfterFree := by
  decide +kernel

/-- C122 in full for a variable that holds an array: arrays may occur at several places. -/
def ReplaceNested : Prop := ∀ (re : List Int → List Int) (s : State Int) (n : Nat) (v : V Int) (t : Nested Int) (fp : List Addr) (d : Nat), Reach s → s.stk[n]? = some v →
  IsTree s.mem v t fp → (∀ k xs, t ≠ .nums k xs) → t.Strings (fun xs => Fits (re xs)) → t.depth ≤ d →
  ∃ s' fp', strTo (replaceIn re) d n n s = .ok v s' ∧ IsTree s'.mem v (t.mapText re) fp'

/-- It does not hold: if an array occurs twice, its strings are replaced twice.  Doubling the strings of `["b", x, x]` for `x = ["a", "a"]` gives `["bb", x, x]` for
    `x = ["aaaa", "aaaa"]`. -/
theorem replace_shared_twice : ¬ ReplaceNested := by
  intro h
  obtain ⟨s', fp', h1, h2⟩ := h (fun xs => xs ++ xs) (final progShared) 1 _ _ _ 9 (reach_exec progShared .start (by decide +kernel)) (by decide +kernel) progShared_tree (fun k xs h => by cases h)
    (by
      have ha : (Nested.list [Nested.nums .char [(97 : Int)], .nums .char [97]]).Strings fun xs => Fits (xs ++ xs) := .list (by
        intro t ht
        simp only [List.mem_cons, List.not_mem_nil, or_false, or_self] at ht
        subst ht
        exact .str (by simp [Fits]))
      refine .list fun t ht => ?_
      simp only [List.mem_cons, List.not_mem_nil, or_false, or_self] at ht
      rcases ht with rfl | rfl
      · exact .str (by simp [Fits])
      · exact ha) (by simp [Nested.depth])
  have h3 : strTo (replaceIn fun xs => xs ++ xs) 9 1 1 (final progShared) =
      .ok (.arr 4) (match strTo (replaceIn fun xs => xs ++ xs) 9 1 1 (final progShared) with | .ok _ s => s | _ => ⟨[], []⟩) := by decide +kernel
  injection h1.symm.trans h3 with _ h3
  have g1 : s'.mem[4]? = some (some ⟨.var, 3, 2, .var (.arr 5) :: .var (.arr 1) :: .var (.arr 1) :: List.replicate 5 (.var .nil)⟩) := by rw [h3]; decide +kernel
  have g2 : s'.mem[1]? = some (some ⟨.var, 2, 3, .var (.arr 8) :: .var (.arr 9) :: List.replicate 6 (.var .nil)⟩) := by rw [h3]; decide +kernel
  have g3 : ∃ o, s'.mem[8]? = some (some o) ∧ o.size = 4 := ⟨⟨.char, 4, 1, [.raw (some 97), .raw (some 97), .raw (some 97), .raw (some 97), .raw (some 0), .raw none, .raw none, .raw none]⟩,
    by rw [h3]; decide +kernel, rfl⟩
  rw [mapText_list] at h2
  simp only [List.map_cons, List.map_nil, mapText_list, mapText_str] at h2
  have child : ∀ {a : Addr} {ts : List (Nested Int)} {f : List Addr} {o : Obj Int} {i : Nat} {v : V Int} {t : Nested Int}, IsTree s'.mem (.arr a) (.list ts) f → s'.mem[a]? = some (some o) →
      o.cells[i]? = some (.var v) → ts[i]? = some t → ∃ f', IsTree s'.mem v t f' := by
    intro a ts f o i v t ht ho hc hi
    cases ht with
    | @list _ o' vs _ fs e1 e2 e3 e4 e5 e6 e7 =>
      rw [ho] at e1
      cases e1
      have hlt := (List.getElem?_eq_some_iff.1 hi).1
      have e8 := e6 i _ (List.getElem?_eq_getElem (by omega))
      rw [hc] at e8
      have e9 := e7 i _ _ _ (List.getElem?_eq_getElem (by omega)) hi (List.getElem?_eq_getElem (by omega))
      simp only [Option.some.injEq, Cell.var.injEq] at e8
      rw [← e8] at e9
      exact ⟨_, e9⟩
  obtain ⟨f1, c1⟩ := child (i := 1) h2 g1 rfl rfl
  obtain ⟨f2, c2⟩ := child (i := 0) c1 g2 rfl rfl
  obtain ⟨o, g3, g4⟩ := g3
  cases c2 with
  | nums e1 e2 e3 =>
    rw [g3] at e1
    cases e1
    have := e3.2.1
    simp at this
    omega

/-! ## Examples -/

/-- `["b", {5: "c", 7: "ab"}]`, and a variable that refers to the map in it. -/
def progTxt : List (Stmt Int) := [.decl .nil, .setKey 0 (.num .int 7) (.str [97, 98]), .setKey 0 (.num .int 5) (.str [99]), .decl .nil, .push 1 (.str [98]), .push 1 (.name 0), .decl (.at 1 1)]

theorem progTxt_reach : Reach (final progTxt) := reach_exec progTxt .start (by decide +kernel)

theorem progTxt_mem : (final progTxt).mem = [some ⟨.char, 2, 1, [.raw (some 97), .raw (some 98), .raw (some 0), .raw none, .raw none, .raw none, .raw none, .raw none]⟩,
    some ⟨.pair, 2, 2, .pair (.num .int 5) (.arr 2) :: .pair (.num .int 7) (.arr 0) :: List.replicate 6 (.pair .nil .nil)⟩,
    some ⟨.char, 1, 1, .raw (some 99) :: .raw (some 0) :: List.replicate 6 (.raw none)⟩, some ⟨.char, 1, 1, .raw (some 98) :: .raw (some 0) :: List.replicate 6 (.raw none)⟩,
    some ⟨.var, 2, 2, .var (.arr 3) :: .var (.arr 1) :: List.replicate 6 (.var .nil)⟩] := by decide +kernel

def mapN : Nested Int := .map [.num .int 5, .num .int 7] [.nums .char [99], .nums .char [97, 98]]

theorem progTxt_map : IsTree (final progTxt).mem (.arr 1) mapN [1, 2, 0] := by
  rw [progTxt_mem]
  refine .map (vs := [.arr 2, .arr 0]) (fs := [[2], [0]]) rfl rfl rfl rfl rfl rfl (fun i k v hk hv => ?_) (two_trees (str_tree [99] rfl rfl rfl rfl) (str_tree [97, 98] rfl rfl rfl rfl))
  match i, hk, hv with
  | 0, hk, hv => cases hk; cases hv; rfl
  | 1, hk, hv => cases hk; cases hv; rfl

theorem progTxt_tree : IsTree (final progTxt).mem (.arr 4) (.list [.nums .char [98], mapN]) [4, 3, 1, 2, 0] := by
  have h := progTxt_map
  rw [progTxt_mem] at h ⊢
  exact .list (vs := [.arr 3, .arr 1]) (fs := [[3], [1, 2, 0]]) rfl rfl rfl rfl rfl (two_cells rfl rfl) (two_trees (str_tree [98] rfl rfl rfl rfl) h)

theorem mapN_strings {P : List Int → Prop} (h : ∀ xs, xs.length ≤ 2 → P xs) : mapN.Strings P := by
  refine .map fun t ht => ?_
  simp only [List.mem_cons, List.not_mem_nil, or_false] at ht
  rcases ht with rfl | rfl <;> exact .str (h _ (by simp))

/-- `x.toupper()` for the whole array, through a variable that holds it. -/
example : ∃ s', strTo (mapCase upper) 4 1 1 (final progTxt) = .ok (.arr 4) s' ∧
    IsTree s'.mem (.arr 4) (.list [.nums .char [66], .map [.num .int 5, .num .int 7] [.nums .char [67], .nums .char [65, 66]]]) [4, 3, 1, 2, 0] := by
  obtain ⟨s', h1, -, -, h2, -⟩ := case_in_place_partial (f := upper) progTxt_reach (n := 1) (v := .arr 4) (by decide +kernel) (.var (by decide +kernel)) progTxt_tree
    (.list fun t ht => by
      simp only [List.mem_cons, List.not_mem_nil, or_false] at ht
      rcases ht with rfl | rfl
      · exact .str trivial
      · exact mapN_strings fun _ _ => trivial) (.inl (by decide)) (d := 4) (by simp [Nested.depth, mapN])
  refine ⟨s', h1, ?_⟩
  simpa [mapN, mapText_list, mapText_map, mapText_str, upper] using h2

/-- `replace` for the map in the array, through a variable that refers to it. -/
example : ∃ s' fp', strTo (replaceIn fun xs => xs ++ xs) 3 2 2 (final progTxt) = .ok (.ref 4 1) s' ∧
    IsTree s'.mem (.arr 1) (.map [.num .int 5, .num .int 7] [.nums .char [99, 99], .nums .char [97, 98, 97, 98]]) fp' := by
  obtain ⟨s', fp', h1, -, -, h2, -⟩ := replace_nested_partial (re := fun xs => xs ++ xs) progTxt_reach (n := 2) (v := .ref 4 1) (by decide +kernel)
    (.elem (a := 4) (i := 1) (o := ⟨.var, 2, 2, .var (.arr 3) :: .var (.arr 1) :: List.replicate 6 (.var .nil)⟩) (by decide +kernel) (by decide +kernel) rfl) progTxt_map (by simp [mapN])
    (by rintro b i ⟨⟩; decide) (by decide) (mapN_strings fun xs h => by simp only [Fits, List.length_append]; omega) (d := 3) (by simp [Nested.depth, mapN])
  refine ⟨s', fp', h1, ?_⟩
  simpa [mapN, mapText_map, mapText_str] using h2

/-- A new map, through the same variable. -/
example : ∃ s' b fp', strNew (mapCase upper) 2 2 (final progTxt) = .ok (.arr b) s' ∧ IsTree s'.mem (.arr b) (.map [.nil, .nil] [.nums .char [67], .nums .char [65, 66]]) fp' := by
  obtain ⟨s', b, fp', h1, -, h2, -⟩ := case_new_map (f := upper) progTxt_reach (n := 2) (ks := [.num .int 5, .num .int 7]) (xss := [[99], [97, 98]])
    (.elem (a := 4) (i := 1) (o := ⟨.var, 2, 2, .var (.arr 3) :: .var (.arr 1) :: List.replicate 6 (.var .nil)⟩) (by decide +kernel) (by decide +kernel) rfl) progTxt_map (by simp [Fits]) (by simp [Fits])
    (d := 2) (by omega)
  exact ⟨s', b, fp', h1, by simpa [upper] using h2⟩

/-- A new array. -/
example : ∃ s' b fp', strNew (mapCase upper) 2 0 (final progDeep) = .ok (.arr b) s' ∧ IsTree s'.mem (.arr b) (.list [.nums .char [65], .nums .char [65]]) fp' := by
  have hm : (final progDeep).mem = [some ⟨.char, 1, 1, .raw (some 97) :: .raw (some 0) :: List.replicate 6 (.raw none)⟩,
      some ⟨.var, 2, 2, .var (.arr 0) :: .var (.arr 2) :: List.replicate 6 (.var .nil)⟩, some ⟨.char, 1, 1, .raw (some 97) :: .raw (some 0) :: List.replicate 6 (.raw none)⟩,
      some ⟨.char, 1, 1, .raw (some 98) :: .raw (some 0) :: List.replicate 6 (.raw none)⟩,
      some ⟨.var, 2, 1, .var (.arr 3) :: .var (.arr 1) :: List.replicate 6 (.var .nil)⟩] := by decide +kernel
  obtain ⟨s', b, fp', h1, -, h2, -⟩ := case_new_list_partial (f := upper) (s := final progDeep) (reach_exec progDeep .start (by decide +kernel)) (n := 0) (w := .arr 1) (xss := [[97], [97]])
    (fp := 1 :: [[0], [2]].flatten) (.var (by decide +kernel))
    (by rw [hm]; exact .list (vs := [.arr 0, .arr 2]) rfl rfl rfl rfl rfl (two_cells rfl rfl) (two_trees (str_tree [97] rfl rfl rfl rfl) (str_tree [97] rfl rfl rfl rfl)))
    (by simp [Fits]) (by simp [Fits]) (d := 2) (by omega)
  exact ⟨s', b, fp', h1, by simpa [upper] using h2⟩

theorem progAB_str : IsTree (final progAB).mem (.arr 0) (.nums .char [65, 66]) [0] := by
  obtain ⟨a, o, h1, h2, h3⟩ := progAB_contents
  have : (final progAB).stk[0]? = some (.arr 0) := by decide +kernel
  rw [this] at h1
  cases h1
  exact .nums h2 (by simp [Number]) h3

/-- A new string, a replaced one and what is found in one. -/
example : (∃ s' b, strNew (mapCase upper) 1 0 (final progAB) = .ok (.arr b) s') ∧ (∃ s' b, strTo (replaceIn fun xs => xs ++ xs) 1 0 0 (final progAB) = .ok (.arr b) s' ∧
      IsTree s'.mem (.arr b) (.nums .char [65, 66, 65, 66]) [b]) ∧
    (∃ s' b fp, strNew (findIn fun xs => some [(0, xs.length), (0, 1)]) 1 0 (final progAB) = .ok (.arr b) s' ∧ IsTree s'.mem (.arr b) (.list [.nums .char [65, 66], .nums .char [65]]) fp) ∧
    ∃ s', strNew (findIn fun _ => none) 1 0 (final progAB) = .ok .nil s' := by
  have hs : Stands (final progAB) 0 (.arr 0) := .var (by decide +kernel)
  refine ⟨?_, ?_, ?_, ?_⟩
  · obtain ⟨s', b, h, -⟩ := case_new_string (f := upper) progAB_reach hs progAB_str (by simp [Fits]) (d := 1) (by omega)
    exact ⟨s', b, h⟩
  · obtain ⟨s', b, h, -, h2, -⟩ := replace_string (re := fun xs => xs ++ xs) progAB_reach (n := 0) (by decide +kernel) progAB_str (by simp [Fits]) (d := 1) (by omega)
    exact ⟨s', b, h, h2⟩
  · obtain ⟨s', b, fp, h, -, h2, -⟩ := (find_string (re := fun xs => some [(0, xs.length), (0, 1)]) progAB_reach hs progAB_str (by simp [Fits]) (d := 1) (by omega)).2 _ rfl (by simp) (by simp [Fits]) (by simp [Fits])
    exact ⟨s', b, fp, h, h2⟩
  · obtain ⟨s', h, -⟩ := (find_string (re := fun _ => none) progAB_reach hs progAB_str (by simp [Fits]) (d := 1) (by omega)).1 rfl
    exact ⟨s', h⟩

#print axioms case_in_place_partial
#print axioms case_new_string
#print axioms case_new_list_partial
#print axioms case_new_map
#print axioms replace_string
#print axioms replace_nested_partial
#print axioms find_string
#print axioms find_self_undefined
#print axioms case_number_diverges
#print axioms case_nil_throws
#print axioms case_char_lost
#print axioms case_new_nested_throws
#print axioms replace_shared_twice

/-- `x = " a"; y = 2.0; strip(x, x); z = toupper(x); y = sin(y)`, then all goes out of scope. -/
def progCalls : List (Stmt Int) :=
  [.decl (.str [32, 97]), .decl (.num .double 2), .eval (.textTo (.strip (· == 32)) 1 0 0), .decl (.text (.case upper) 1 0),
    .assign 1 (.math ⟨false, fun k x => (k, x + x)⟩ 1 1), .leave, .leave, .leave]

/-- The programs of C45 call functions. -/
example : Reach (final (progCalls.take 5)) ∧ Referred (final (progCalls.take 5)) 0 ∧ (final (progCalls.take 5)).stk[1]? = some (.num .double 4) ∧
    (final progCalls).stk = [] ∧ (final progCalls).mem.all Option.isNone :=
  ⟨reach_exec (progCalls.take 5) .start (by decide +kernel), .inl ⟨.arr 0, by decide +kernel, .inl rfl⟩, by decide +kernel, by decide +kernel, by decide +kernel⟩

end Libube.MemProps

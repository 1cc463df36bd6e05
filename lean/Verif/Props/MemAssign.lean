import Verif.Lemmas.MemAssign
import Verif.Props.MemMaps

/-! # Assignment to variables and references (C38, C92, C93) -/

namespace Libube.MemProps

open Mem MemSpec

variable {α : Type}

/-! ## Variables -/

theorem yields_all {s : State α} {m1 m2 : List (Option (Obj α))} {stk stk' : List (V α)} {e : Exp α} {w : V α} (h : Yields s ⟨m1, stk⟩ e w)
    (hk : Kept m1 m2) (hl : ∀ b, w = .arr b → Live m2 b) : Yields s ⟨m2, stk'⟩ e w := by
  cases e with
  | str cs =>
    obtain ⟨b, o, h1, h2, h3, h4, h5, h6⟩ := h
    obtain ⟨rc, g⟩ := Is.kept (k := o.kind) (n := o.size) (cells := o.cells) ⟨o.rc, h3⟩ hk id (hl b h1)
    exact ⟨b, _, h1, h2, g, h4, h5, h6⟩
  | _ => exact h

/-- C92: `x = e` makes the variable the value of the expression; no array changes. -/
theorem assign_var_partial [Env α] {s : State α} (hr : Reach s) {n : Nat} {t : V α} (h : s.stk[n]? = some t) (ht : Plain t) {e : Exp α} (he : Given s e) :
    ∃ s' w, run (.assign n e) s = .ok () s' ∧ Yields s s' e w ∧ Plain w ∧ s'.stk = s.stk.set n w ∧ AllSame s s' := by
  obtain ⟨own, hi⟩ := reach_inv hr
  obtain ⟨m1, v, w, e1, i1, k1, d1, y1⟩ := given_tot hr hi he
  obtain ⟨m2, e2, i2, k2⟩ := assignVar_tot h (plain_iff.1 ht) e1 i1 d1
  have hset : (s.stk.set n w)[n]? = some w := List.getElem?_set_self (List.getElem?_eq_some_iff.1 h).1
  exact ⟨_, w, e2, yields_all y1 k2 (fun b hb => i2.stk_live (mem_stkPtrs hset (by simp [hb, V.ptr]))), plain_iff.2 d1.clean, rfl, all_same (Oth.trans k1 k2)⟩

/-- C92: `x = m[k]` for a key in the map makes `x` its value; no array changes. -/
theorem assign_entry_partial [Env α] (K : KeyOrder α) {s : State α} (hr : Reach s) {x n : Nat} {l : List (Item α × V α)} (h : MapOf K s n l) {t : Item α}
    (ht : K.Key t) {k : Exp α} (hk : KeyExp s k t) {w u : V α} (hw : (t, w) ∈ l) (hx : s.stk[x]? = some u) (hu : Plain u) (hf : Fits l) :
    ∃ s', run (.assign x (.key n k)) s = .ok () s' ∧ Plain w ∧ s'.stk = s.stk.set x w ∧ AllSame s s' := by
  have hf : l.length + 2 ≤ 2 ^ 30 := hf
  obtain ⟨own, a, ps, cells, hma, hmk⟩ := ma_of_entries hr h.1
  obtain ⟨m1, p, l', ps', cells', w', e1, h1, k1, hmk1, hl1, hp, hc⟩ := evalKey_tot K hma hmk h.2 ht hk (by omega)
  rcases hc with ⟨rfl, rfl, k1'⟩ | ⟨hab, -, -⟩
  · obtain ⟨i, hi⟩ := List.getElem?_of_mem hw
    have : i = p := by
      rcases Nat.lt_trichotomy i p with hh | hh | hh
      · exact absurd (ascending_get hl1 hh hi hp) (K.irrefl ht)
      · exact hh
      · exact absurd (ascending_get hl1 hh hp hi) (K.irrefl ht)
    rw [this, hp] at hi
    cases hi
    obtain ⟨kv, g1, -⟩ := hmk1.get p t _ hp
    have hcell := h1.elem p kv _ g1
    have hcl := (h1.clean _ (List.mem_of_getElem? hcell)).2
    obtain ⟨m2, e2, i2, k2⟩ := assignVar_tot (own := own) hx (plain_iff.1 hu) e1 h1.inv (.var h1.is (.inr rfl) hcell rfl hcl)
    exact ⟨_, e2, plain_iff.2 hcl, rfl, all_same (Oth.trans k1' k2)⟩
  · exact absurd hw (hab w)

/-- C92: `x = m.at(k)` makes `x` the value of the key, or nil if there is none; no array changes. -/
theorem assign_at_key [Env α] (K : KeyOrder α) {s : State α} (hr : Reach s) {x n : Nat} {l : List (Item α × V α)} (h : MapOf K s n l) {t : Item α}
    (ht : K.Key t) {k : Exp α} (hk : KeyExp s k t) {u : V α} (hx : s.stk[x]? = some u) (hu : Plain u) :
    ∃ s' w, run (.assign x (.atKey n k)) s = .ok () s' ∧ (Absent l t ∧ w = .nil ∨ (t, w) ∈ l) ∧ Plain w ∧ s'.stk = s.stk.set x w ∧ AllSame s s' := by
  obtain ⟨own, a, ps, cells, hma, hmk⟩ := ma_of_entries hr h.1
  obtain ⟨m1, v, e1, h1, k1, hc⟩ := evalAt_tot K hma hmk h.2 ht hk
  have hmk1 : MK ⟨m1, s.stk⟩ l ps := MK.oth (K := K) (P := fun _ => False) (a := a) hmk h.2 (fun _ h => absurd h id) hma.is k1 (fun i k u hi => h1.key_live hi)
  rcases hc with ⟨hab, rfl⟩ | ⟨p, w, rfl, hp⟩
  · obtain ⟨m2, e2, i2, k2⟩ := assignVar_tot (own := own) hx (plain_iff.1 hu) e1 h1.inv (.self id)
    exact ⟨_, .nil, e2, .inl ⟨hab, rfl⟩, plain_iff.2 id, rfl, all_same (Oth.trans k1 k2)⟩
  · obtain ⟨kv, g1, -⟩ := hmk1.get p t w hp
    have hcell := h1.elem p kv w g1
    have hcl := (h1.clean _ (List.mem_of_getElem? hcell)).2
    obtain ⟨m2, e2, i2, k2⟩ := assignVar_tot (own := own) hx (plain_iff.1 hu) e1 h1.inv (.var h1.is (.inr rfl) hcell rfl hcl)
    exact ⟨_, w, e2, .inr (List.mem_of_getElem? hp), plain_iff.2 hcl, rfl, all_same (Oth.trans k1 k2)⟩

/-- What a map has, a variable that becomes that map has. -/
theorem map_same [Env α] {K : KeyOrder α} {s s' : State α} (hr' : Reach s') {b : Addr} {x : Nat} {l : List (Item α × V α)} (h : MapOf K (Seen s b) 0 l)
    (hx : s'.stk[x]? = some (.arr b)) (hs : AllSame s s') : MapOf K s' x l := by
  refine ⟨?_, h.2⟩
  obtain ⟨ks, h1, ⟨a, o, e1, e2, e3, e4, e5⟩, h3⟩ := h.1
  cases e1
  obtain ⟨own, hi⟩ := reach_inv hr'
  obtain ⟨ob, hob⟩ := hi.stk_live (mem_stkPtrs hx (a := b) (by simp [V.ptr]))
  rcases hs.1 _ _ e2 with hh | ⟨o', f1, f2, f3, f4⟩
  · rw [hob] at hh
    cases hh
  · refine ⟨ks, h1, ⟨b, o', hx, f1, f2.trans e3, f3.trans e4, fun i c hc => by rw [f4]; exact e5 i c hc⟩, fun i t w k ht hk => ?_⟩
    have hsh := h3 i t w k ht hk
    rcases K.simple (h.2.1 _ (List.mem_of_getElem? ht)) with ⟨k', y, rfl, -⟩ | ⟨cs, rfl, -⟩
    · exact hsh
    · obtain ⟨c, oc, rfl, g1, g2, g3, g4⟩ := hsh
      have hz : (ks.zip l)[i]? = some (.arr c, (.str cs, w)) := by
        rw [List.getElem?_zip_eq_some]
        exact ⟨hk, ht⟩
      have hcell := e5 i (.pair (.arr c) w) (by rw [List.getElem?_map, hz]; rfl)
      rw [← f4] at hcell
      obtain ⟨oc', hoc'⟩ := hi.cell_live (k := o'.kind) (n := o'.size) ⟨o'.rc, f1⟩ (List.mem_of_getElem? hcell) (b := c) (by simp [Cell.ptrs, V.ptr])
      rcases hs.1 _ _ g1 with hh | ⟨o2, j1, j2, j3, j4⟩
      · rw [hoc'] at hh
        cases hh
      · exact ⟨c, o2, rfl, j1, j2.trans g2, j3.trans g3, fun i x hx => by rw [j4]; exact g4 i x hx⟩

theorem all_same_trans {s1 s2 s3 : State α} (h1 : AllSame s1 s2) (h2 : AllSame s2 s3) : AllSame s1 s3 := by
  refine ⟨fun b o ho => ?_, fun b hb => h2.2 b (h1.2 b hb)⟩
  rcases h1.1 b o ho with h | ⟨o', e1, e2, e3, e4⟩
  · exact .inl (h2.2 b h)
  · rcases h2.1 b o' e1 with h | ⟨o2, f1, f2, f3, f4⟩
    · exact .inl h
    · exact .inr ⟨o2, f1, f2.trans e2, f3.trans e3, f4.trans e4⟩

/-- C38: in two steps, `x = m[j]` and `x.at(k)`, the value of `k` in the inner map is found; nothing changes. -/
theorem nested_at_partial [Env α] (K L : KeyOrder α) {s : State α} (hr : Reach s) {x n : Nat} {l l' : List (Item α × V α)} (h : MapOf K s n l) {t t' : Item α} {b : Addr}
    (h' : MapOf L (Seen s b) 0 l') (ht : K.Key t) (ht' : L.Key t') (hb : (t, .arr b) ∈ l) {u w : V α} (hx : s.stk[x]? = some u) (hu : Plain u)
    (hw : (t', w) ∈ l') (hf : Fits l) :
    ∃ s1 s2, run (.assign x (.key n t.exp)) s = .ok () s1 ∧ run (.decl (.atKey x t'.exp)) s1 = .ok () s2 ∧ Reads s2 s.stk.length w ∧ AllSame s s2 := by
  obtain ⟨s1, e1, -, st1, a1⟩ := assign_entry_partial K hr h ht (.inl rfl) hb hx hu hf
  have hr1 : Reach s1 := .ok hr e1
  have hx1 : s1.stk[x]? = some (.arr b) := by rw [st1, List.getElem?_set_self (List.getElem?_eq_some_iff.1 hx).1]
  obtain ⟨s2, e2, -, -, a2, -, h2⟩ := at_key L hr1 (map_same hr1 h' hx1 a1) ht' (.inl rfl)
  refine ⟨s1, s2, e1, e2, ?_, all_same_trans a1 a2⟩
  have := (h2 w hw).2
  rw [st1, List.length_set] at this
  exact this

/-! ## References -/

/-- C93: `r = e` for a reference to the entry of a key gives that key the value; nothing else changes. -/
theorem ref_assign_entry_partial [Env α] (K : KeyOrder α) {s : State α} (hr : Reach s) {n r : Nat} {l : List (Item α × V α)} (h : MapOf K s n l) {t : Item α}
    (hu : RefersTo s r n l t) {e : Exp α} (he : Usable s n e) :
    ∃ s' w l', run (.assign r e) s = .ok () s' ∧ Yields s s' e w ∧ MapOf K s' n l' ∧ Updated l l' t w ∧ s'.stk = s.stk ∧ OthersSame s s' n := by
  obtain ⟨own, a, ps, cells, hma, hmk⟩ := ma_of_entries hr h.1
  obtain ⟨a', p, x, g1, g2, g3⟩ := hu
  rw [hma.slot] at g1
  cases g1
  obtain ⟨m1, v, w, e1, i1, k1, d1, n1, y1⟩ := usable_tot hr hma.inv hma.slot he
  have hslot : a ∈ stkPtrs s.stk := mem_stkPtrs hma.slot (by simp [V.ptr])
  have his : Is m1 a .pair ps.length cells := hma.is.kept k1 id (i1.stk_live hslot)
  obtain ⟨kv, hpp, -⟩ := hmk.get p t x g3
  have hcell := hma.elem p kv x hpp
  have hcl := hma.clean _ (List.mem_of_getElem? hcell)
  obtain ⟨m2, e2, i2, h2, k2⟩ := assignRef_tot (s := ⟨m1, s.stk⟩) i1 g2 his (.inr rfl) hcell rfl hcl.2 d1 (n1 p)
  have hplt : p < ps.length := (List.getElem?_eq_some_iff.1 hpp).1
  have h4 : MA ⟨m2, s.stk⟩ own n a (ps.set p (kv, w)) (cells.set p (.pair kv w)) := by
    refine ⟨i2, hma.slot, ?_, fun i x y hi => ?_, set_clean hma.clean ⟨hcl.1, d1.clean⟩⟩
    · rw [List.length_set]
      exact h2
    · by_cases hip : p = i
      · subst hip
        rw [List.getElem?_set_self hplt] at hi
        cases hi
        exact List.getElem?_set_self (List.getElem?_eq_some_iff.1 hcell).1
      · rw [List.getElem?_set_ne hip] at hi ⊢
        exact hma.elem i x y hi
  have hl4 := ascending_set h.2 g3 w
  have hk4 : MK ⟨m2, s.stk⟩ (l.set p (t, w)) (ps.set p (kv, w)) :=
    MK.oth (K := K) (a := a) (hmk.set g3 hpp) hl4 (fun _ h => h) hma.is (Oth.trans k1.oth k2) (fun i k u hi => h4.key_live hi)
  have halt : a < s.mem.length := by obtain ⟨rc, g⟩ := hma.is; exact lt_of_alive g
  have hwl : ∀ b, w = .arr b → Live m2 b := fun b hb =>
    h4.val_live (i := p) (k := kv) (u := w) (List.getElem?_set_self hplt) b (by simp [hb, V.ptr])
  exact ⟨⟨m2, s.stk⟩, w, l.set p (t, w), (bind_eq e1).trans e2, yields_kept y1 k2 halt hwl, ⟨h4.entries hk4, hl4⟩, updated_set h.2 g3 w, rfl,
    oth_same hma.slot hma.is.live (Oth.trans k1.oth k2)⟩

/-- C93: `r = e` for a reference to an element of an array of vars replaces that element; nothing else changes. -/
theorem ref_assign_var_partial [Env α] {s : State α} (hr : Reach s) {n r i : Nat} {vs : List (V α)} (h : Vars s n vs) (hu : RefersAt s r n i) (hi : i < vs.length)
    {e : Exp α} (he : Usable s n e) :
    ∃ s' w, run (.assign r e) s = .ok () s' ∧ Yields s s' e w ∧ Vars s' n (vs.set i w) ∧ s'.stk = s.stk ∧ OthersSame s s' n := by
  obtain ⟨own, a, cells, hva⟩ := va_of_vars hr h
  obtain ⟨a', g1, g2⟩ := hu
  rw [hva.slot] at g1
  cases g1
  obtain ⟨m1, v, w, e1, i1, k1, d1, n1, y1⟩ := usable_tot hr hva.inv hva.slot he
  have hslot : a ∈ stkPtrs s.stk := mem_stkPtrs hva.slot (by simp [V.ptr])
  have his : Is m1 a .var vs.length cells := hva.is.kept k1 id (i1.stk_live hslot)
  have hcell := hva.elem i _ (List.getElem?_eq_getElem hi)
  have hcl := hva.clean _ (List.mem_of_getElem? hcell)
  obtain ⟨m2, e2, i2, h2, k2⟩ := assignRef_tot (s := ⟨m1, s.stk⟩) i1 g2 his (.inl rfl) hcell rfl hcl d1 (n1 i)
  have hclt := (List.getElem?_eq_some_iff.1 hcell).1
  have h4 : VA ⟨m2, s.stk⟩ own n a (vs.set i w) (cells.set i (.var w)) := by
    refine ⟨i2, hva.slot, ?_, fun j x hj => ?_, set_clean hva.clean d1.clean⟩
    · rw [List.length_set]
      exact h2
    · by_cases hij : i = j
      · subst hij
        rw [List.getElem?_set_self hi] at hj
        cases hj
        exact List.getElem?_set_self hclt
      · rw [List.getElem?_set_ne hij] at hj ⊢
        exact hva.elem j x hj
  have halt : a < s.mem.length := by obtain ⟨rc, g⟩ := hva.is; exact lt_of_alive g
  have hwl : ∀ b, w = .arr b → Live m2 b := fun b hb =>
    i2.cell_live h2 (List.mem_of_getElem? (List.getElem?_set_self hclt)) (by simp [Cell.put, Cell.ptrs, hb, V.ptr])
  exact ⟨⟨m2, s.stk⟩, w, (bind_eq e1).trans e2, yields_kept y1 k2 halt hwl, h4.vars, rfl, oth_same hva.slot hva.is.live (Oth.trans k1.oth k2)⟩

/-- C93: `r = x` for a reference to an element of an array of numbers replaces that element; nothing else changes. -/
theorem ref_assign_number [Env α] {s : State α} {n r i : Nat} {k j : Kind} {xs : List α} (x : α) (hk : Number k) (hj : Scalar j)
    (h : Contents s n k xs) (hu : RefersAt s r n i) (hi : i < xs.length) :
    ∃ s', run (.assign r (.num j x)) s = .ok () s' ∧ Contents s' n k (xs.set i (Env.conv j k x)) ∧ OnlyArray s s' n := by
  obtain ⟨a, o, h1, h2, h3, h4, h5⟩ := h
  obtain ⟨a', g1, g2⟩ := hu
  rw [h1] at g1
  cases g1
  have hc := h5 i _ (List.getElem?_eq_getElem hi)
  subst h3
  refine ⟨_, (bind_eq (newNum_scalar hj x s)).trans (assignRef_num g2 h2 hk hc), ⟨a, _, h1, upd_get h2 _, rfl, by simpa using h4, fun q y hq => ?_⟩, rfl, fun a' b ha' hb _ => ?_⟩
  · by_cases hiq : i = q
    · subst hiq
      rw [List.getElem?_set_self hi] at hq
      cases hq
      exact List.getElem?_set_self (List.getElem?_eq_some_iff.1 hc).1
    · rw [List.getElem?_set_ne hiq] at hq
      exact (List.getElem?_set_ne hiq).trans (h5 q y hq)
  · rw [h1] at ha'
    cases ha'
    exact upd_other (fun e => hb e.symm) _

/-! ## Cases that meet the hypotheses -/

section
attribute [local instance] intEnv

/-- In the state of `progTwo`, `x` is "A" 5 and `y` is 3 4: values for `y = e`. -/
example : (final progTwo).stk[1]? = some (.arr 2) ∧ Plain (.arr 2 : V Int) ∧ Given (final progTwo) (.elem 0 0) ∧ Given (final progTwo) (.elem 1 1) ∧
    Given (final progTwo) (.name 0) ∧ Given (final progTwo) (.str [66]) :=
  ⟨by decide +kernel, fun _ _ h => (by cases h), ⟨0, rfl, .inl ⟨_, progTwo_vars, by decide⟩⟩,
    ⟨1, rfl, .inr ⟨.int, [3, 4], ⟨⟨by decide, by decide⟩, by decide⟩, progTwo_contents, by decide⟩⟩,
    ⟨.arr 1, by decide +kernel, fun _ _ h => (by cases h)⟩, by simp [Given, Fits]⟩

/-- Hypotheses of `nested_at_partial`, `assign_entry_partial` and `assign_at_key`: `{1: {7: 70}}` in variable 1, and a variable for the inner map. -/
def progIn : List (Stmt Int) := progNest ++ [.decl .nil]

example : Reach (final progIn) ∧ MapOf intKeys (final progIn) 1 [(.num .int 1, .arr 0)] ∧ MapOf intKeys (Seen (final progIn) 0) 0 [(.num .int 7, .num .int 70)] ∧
    (final progIn).stk[3]? = some .nil :=
  ⟨reach_exec progIn .start (by decide +kernel),
    int_map_of (a := 1) (o := ⟨.pair, 1, 2, .pair (.num .int 1) (.arr 0) :: List.replicate 7 (.pair .nil .nil)⟩) [(1, .arr 0)]
      (by decide +kernel) (by decide +kernel) rfl rfl rfl (by simp),
    int_map_of (a := 0) (o := ⟨.pair, 1, 2, .pair (.num .int 7) (.num .int 70) :: List.replicate 7 (.pair .nil .nil)⟩) [(7, .num .int 70)]
      rfl (show (final progIn).mem[0]? = _ by decide +kernel) rfl rfl rfl (by simp),
    by decide +kernel⟩

/-- Hypotheses of `ref_assign_entry_partial`: see `progRef_map` and `progRef_refers`; of `ref_assign_var_partial` and `ref_assign_number`: -/
def progRefs : List (Stmt Int) := progTwo ++ [.decl (.elem 0 0), .decl (.elem 1 1)]

theorem progRefs_reach : Reach (final progRefs) := reach_exec progRefs .start (by decide +kernel)

theorem progRefs_vars : Vars (final progRefs) 0 [.arr 0, .num .int 5] := by
  refine ⟨1, ⟨.var, 2, 2, [.var (.arr 0), .var (.num .int 5), .var .nil, .var .nil, .var .nil, .var .nil, .var .nil, .var .nil]⟩,
    by decide +kernel, by decide +kernel, rfl, rfl, fun i c hc => ?_⟩
  match i, hc with
  | 0, hc => simpa using hc
  | 1, hc => simpa using hc

theorem progRefs_contents : Contents (final progRefs) 1 .int [3, 4] :=
  contents_of (a := 2) (o := ⟨.int, 2, 2, [.raw (some 3), .raw (some 4), .raw none, .raw none, .raw none, .raw none, .raw none, .raw none]⟩)
    [3, 4] (by decide +kernel) (by decide +kernel) (by decide) rfl

example : RefersAt (final progRefs) 2 0 0 ∧ RefersAt (final progRefs) 3 1 1 ∧ Usable (final progRefs) 0 (.str [66]) :=
  ⟨⟨1, by decide +kernel, by decide +kernel⟩, ⟨2, by decide +kernel, by decide +kernel⟩, by simp [Usable, Fits]⟩

/-! ## What does not hold -/

/-- C93 in full: `r = e` gives the element `r` refers to the value. -/
def RefAssigns : Prop := ∀ (s : State Int) (n r i : Nat) (vs : List (V Int)) (e : Exp Int), Reach s → Vars s n vs → RefersAt s r n i → i < vs.length → Given s e →
  ∃ s' w, run (.assign r e) s = .ok () s' ∧ Yields s s' e w ∧ Vars s' n (vs.set i w)

/-- It does not: with `r` referring to `x[0]`, `r = x[0]` throws and leaves a var of no type in the array. -/
theorem ref_assign_self_throws : ¬ RefAssigns ∧ ∃ s' o, run (.assign 2 (.elem 0 0)) (final progRefs) = .thrown (.error "var::dereference(): Unknown type") s' ∧
    s'.mem[1]? = some (some o) ∧ o.cells[0]? = some (.var (.bad .var)) := by
  have h1 : run (.assign 2 (.elem 0 0)) (final progRefs) = .thrown (.error "var::dereference(): Unknown type")
      (match run (.assign 2 (.elem 0 0)) (final progRefs) with | .thrown _ s => s | _ => ⟨[], []⟩) := by decide +kernel
  refine ⟨fun h => ?_, _, ⟨.var, 2, 3, [.var (.bad .var), .var (.num .int 5), .var .nil, .var .nil, .var .nil, .var .nil, .var .nil, .var .nil]⟩, h1, by decide +kernel, rfl⟩
  obtain ⟨s', w, h2, -⟩ := h _ 0 2 0 _ (.elem 0 0) progRefs_reach progRefs_vars ⟨1, by decide +kernel, by decide +kernel⟩ (by decide)
    ⟨0, rfl, .inl ⟨_, progRefs_vars, by decide⟩⟩
  rw [h2] at h1
  cases h1

end

#print axioms assign_var_partial
#print axioms assign_entry_partial
#print axioms assign_at_key
#print axioms nested_at_partial
#print axioms ref_assign_entry_partial
#print axioms ref_assign_var_partial
#print axioms ref_assign_number
#print axioms ref_assign_self_throws

end Libube.MemProps

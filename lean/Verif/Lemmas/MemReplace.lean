import Verif.Lemmas.MemString
import Verif.Spec.MemString

/-! # Replacing strings at any depth -/

namespace Libube.Mem

open MemSpec

variable {α : Type}

theorem mapText_list (g : List α → List α) (ts : List (Nested α)) : (Nested.list ts).mapText g = .list (ts.map (Nested.mapText g)) := by
  rw [Nested.mapText]; simp

theorem mapText_map (g : List α → List α) (ks : List (V α)) (ts : List (Nested α)) : (Nested.map ks ts).mapText g = .map ks (ts.map (Nested.mapText g)) := by
  rw [Nested.mapText]; simp

theorem mapText_str (g : List α → List α) (xs : List α) : (Nested.nums .char xs).mapText g = .nums .char (g xs) := by
  rw [Nested.mapText]; simp

theorem rawAt_elem {s : State α} {a : Addr} {o : Obj α} (h : s.mem[a]? = some (some o)) {i : Nat} {x : α} (hx : o.cells[i]? = some (.raw (some x))) : rawAt a i s = .ok x s :=
  rawAt_run h hx

theorem readChars_run {s : State α} {a : Addr} {o : Obj α} {xs : List α} (h : s.mem[a]? = some (some o)) (hx : Elements o .char xs) :
    ∀ n i, i + n ≤ xs.length → readChars a i n s = .ok ((xs.drop i).take n) s := by
  intro n
  induction n with
  | zero => intro i hi; rfl
  | succ n ih =>
    intro i hi
    have hlt : i < xs.length := by omega
    unfold readChars
    rw [bind_eq (rawAt_elem h (hx.2.2 i _ (List.getElem?_eq_getElem hlt))), bind_eq (ih (i + 1) (by omega)), List.drop_eq_getElem_cons hlt]
    rfl

/-- The text of a string. -/
theorem textV_run {s : State α} {v : V α} {a : Addr} {o : Obj α} {xs : List α} (hv : Deno s.mem v (.arr a)) (h : s.mem[a]? = some (some o)) (hx : Elements o .char xs) :
    textV v s = .ok xs s := by
  unfold textV
  rw [bind_eq (heapOf_deno hv)]
  simp only
  rw [bind_eq (obj_eq h), hx.2.1, readChars_run h hx xs.length 0 (by omega)]
  simp

/-- What is done to an element. -/
def RepOk [Env α] (re : List α → List α) (d : Nat) : Prop := ∀ {s : State α} {own : List Addr} {p j : Nat} {k : Kind} {n : Nat} {cells : List (Cell α)} {c : Cell α} {w : V α} {t : Nested α}
  {fp : List Addr} {m : Nat}, Inv s own → Is s.mem p k n cells → Holds k → cells[j]? = some c → c.get false = some w → IsTree s.mem w t fp → p ∉ fp → fp.Nodup →
  s.stk[m]? = some (.ref p j) → t.Strings (fun xs => (re xs).length + 1 ≤ 2 ^ 30) → t.depth ≤ d →
  ∃ (mem' : List (Option (Obj α))) (w' : V α) (fp' : List Addr), strCall (replaceIn re) d false (.ref p j) (.slot m) s = .ok () ⟨mem', s.stk⟩ ∧ Inv ⟨mem', s.stk⟩ own ∧
    Is mem' p k n (cells.set j (c.put false w')) ∧ IsTree mem' w' (t.mapText re) fp' ∧ (∀ b ∈ fp', b ∈ fp ∨ s.mem.length ≤ b) ∧ Oth (fun b => b = p ∨ b ∈ fp) s.mem mem'

theorem tree_lt {mem : List (Option (Obj α))} {v : V α} {t : Nested α} {fp : List Addr} (h : IsTree mem v t fp) : ∀ b ∈ fp, b < mem.length := by
  have child : ∀ {vs : List (V α)} {ts : List (Nested α)} {fs : List (List Addr)}, vs.length = ts.length → fs.length = ts.length →
      (∀ (i : Nat) (v : V α) (t : Nested α) (f : List Addr), vs[i]? = some v → ts[i]? = some t → fs[i]? = some f → ∀ b ∈ f, b < mem.length) → ∀ b ∈ fs.flatten, b < mem.length := by
    intro vs ts fs h1 h2 ih b hb
    obtain ⟨f, hf, hb⟩ := List.mem_flatten.1 hb
    obtain ⟨i, hi⟩ := List.getElem?_of_mem hf
    have hlt := (List.getElem?_eq_some_iff.1 hi).1
    exact ih i _ _ f (List.getElem?_eq_getElem (by omega)) (List.getElem?_eq_getElem (by omega)) hi b hb
  induction h with
  | num h => simp
  | nums h1 _ _ => intro b hb; rw [List.mem_singleton] at hb; subst hb; exact lt_of_alive h1
  | list h1 h2 h3 h4 h5 h6 h7 ih =>
    intro b hb
    rcases List.mem_cons.1 hb with rfl | hb
    · exact lt_of_alive h1
    · exact child h4 h5 ih b hb
  | map h1 h2 h3 h3' h4 h5 h6 h7 ih =>
    intro b hb
    rcases List.mem_cons.1 hb with rfl | hb
    · exact lt_of_alive h1
    · exact child h4 h5 ih b hb

theorem rep_node [Env α] {re : List α → List α} {d : Nat} (hE : RepOk re d) {s : State α} {own : List Addr} (hi : Inv s own) {v : V α} {a : Addr} {same : Bool} (hd : Deno s.mem v (.arr a))
    {m : Nat} (hm : s.stk[m]? = some v) {k : Kind} {n : Nat} {cells : List (Cell α)} (h : Is s.mem a k n cells) (hk : Holds k) {vs : List (V α)} {ts : List (Nested α)}
    {fs : List (List Addr)} (hva : ∀ b j, v = .ref b j → b ∉ a :: fs.flatten) (hn : n = ts.length) (hlv : vs.length = ts.length) (hlf : fs.length = ts.length)
    (hc : ∀ (i : Nat) (w : V α), vs[i]? = some w → ∃ c, cells[i]? = some c ∧ c.get false = some w)
    (ht : ∀ (i : Nat) (w : V α) (t : Nested α) (f : List Addr), vs[i]? = some w → ts[i]? = some t → fs[i]? = some f → IsTree s.mem w t f)
    (hnd : (a :: fs.flatten).Nodup) (hall : ∀ t ∈ ts, t.Strings (fun xs => (re xs).length + 1 ≤ 2 ^ 30)) (hdep : ∀ t ∈ ts, t.depth ≤ d) :
    ∃ (mem' : List (Option (Obj α))) (cells' : List (Cell α)) (vs' : List (V α)) (gs : List (List Addr)), strCall (replaceIn re) (d + 1) same v (.slot m) s = .ok () ⟨mem', s.stk⟩ ∧
      Inv ⟨mem', s.stk⟩ own ∧ Is mem' a k n cells' ∧ vs'.length = ts.length ∧ gs.length = ts.length ∧
      (∀ (i : Nat) (c : Cell α) (w : V α), cells[i]? = some c → vs'[i]? = some w → cells'[i]? = some (c.put false w)) ∧
      (∀ (i : Nat) (w : V α) (t : Nested α) (f : List Addr), vs'[i]? = some w → ts[i]? = some t → gs[i]? = some f → IsTree mem' w (t.mapText re) f) ∧
      (∀ b ∈ gs.flatten, b ∈ fs.flatten ∨ s.mem.length ≤ b) ∧ Oth (· ∈ a :: fs.flatten) s.mem mem' := by
  have hvs : ∀ b ∈ v.ptr.toList, b ∈ stkPtrs s.stk := fun b hb => mem_stkPtrs hm hb
  have hkc : k ≠ .char := holds_ne_char hk
  have hal : a < s.mem.length := by obtain ⟨rc, h⟩ := h; exact lt_of_alive h
  have hfl : ∀ (j : Nat) (f : List Addr), fs[j]? = some f → ∀ b ∈ f, b < s.mem.length := by
    intro j f hf
    have hlt := (List.getElem?_eq_some_iff.1 hf).1
    exact tree_lt (ht j _ _ f (List.getElem?_eq_getElem (by omega)) (List.getElem?_eq_getElem (by omega)) hf)
  let g : Nested α → Nested α := Nested.mapText re
  let J : Nat → List (Option (Obj α)) → Prop := fun i mem => Deno mem v (.arr a) ∧ Oth (· ∈ a :: fs.flatten) s.mem mem ∧
    ∃ (cells' : List (Cell α)) (vs' : List (V α)) (gs : List (List Addr)), Is mem a k n cells' ∧ vs'.length = ts.length ∧ gs.length = ts.length ∧
      (∀ (j : Nat) (c : Cell α) (w : V α), cells[j]? = some c → vs'[j]? = some w → cells'[j]? = some (c.put false w)) ∧
      (∀ (j : Nat) (w : V α) (t : Nested α) (f : List Addr), vs'[j]? = some w → ts[j]? = some t → gs[j]? = some f → IsTree mem w (if j < i then g t else t) f) ∧
      (∀ (j : Nat) (f e : List Addr), gs[j]? = some f → fs[j]? = some e → ∀ b ∈ f, b ∈ e ∨ s.mem.length ≤ b) ∧ (∀ j, i ≤ j → gs[j]? = fs[j]?)
  have alive : ∀ {mem : List (Option (Obj α))} {stk : List (V α)} {own : List Addr}, Inv ⟨mem, stk⟩ own → (∀ b ∈ stkPtrs s.stk, b ∈ stkPtrs stk) → Deno mem v (.arr a) → Live mem a := by
    intro mem stk own hi hs hd
    cases hd with
    | self _ => exact hi.stk_live (hs a (hvs a (by simp [V.ptr])))
    | var h1 h2 h3 h4 h5 => exact hi.cell_live h1 (List.mem_of_getElem? h3) (Cell.get_ptrs h4 (by simp [V.ptr]))
  have cellOf : ∀ {j : Nat}, j < ts.length → ∃ c w0, cells[j]? = some c ∧ c.get false = some w0 := fun {j} hj =>
    let ⟨c, h1, h2⟩ := hc j vs[j] (List.getElem?_eq_getElem (by omega))
    ⟨c, _, h1, h2⟩
  have hst : ∀ {i : Nat} {mem mem' : List (Option (Obj α))} {stk' : List (V α)} {own' : List Addr}, J i mem → Kept mem mem' → Inv ⟨mem', stk'⟩ own' →
      (∀ b ∈ stkPtrs s.stk, b ∈ stkPtrs stk') → J i mem' := by
    rintro i mem mem' stk' own' ⟨j1, j2, cells', vs', gs, j3, j4, j4', j5, j6, j7, j8⟩ hk hi hs
    have hd' : Deno mem' v (.arr a) := j1.kept hk (fun _ _ _ => id) fun b hb => hi.stk_live (hs b (hvs b hb))
    have his := j3.kept hk id (alive hi hs hd')
    refine ⟨hd', j2.trans hk.oth, cells', vs', gs, his, j4, j4', j5, fun j w t f h1 h2 h3 => ?_, j7, j8⟩
    refine isTree_kept hk hi (j6 j w t f h1 h2 h3) (fun b hb => ?_) fun _ _ => id
    obtain ⟨c, w0, g1, g2⟩ := cellOf (List.getElem?_eq_some_iff.1 h2).1
    exact hi.cell_live his (List.mem_of_getElem? (j5 j c w g1 h1)) (Cell.get_ptrs (Cell.get_put g2 w) hb)
  have res := strCall_arr (S := replaceIn re) (d := d) (same := same) (lo := .slot m) (Q := J n) hi hd hvs h hkc
    (fun hj hk hi => hst hj hk hi (fun _ h => h)) (fun m1 k1 i1 => by
      refine broadcast_tot (u := v) (a := a) (b := a) (N := n) (slot_append hm) (fun b hb => up_stk _ (hvs b hb)) J (fun hj => hj.1) (fun hj => hj.1)
        (fun hj hk hi hs => hst hj hk hi fun b hb => hs b (up_stk _ hb)) ?_ (Nat.zero_add _) ?_ i1
      · rintro i mem stk' m' ⟨j1, j2, cells', vs', gs, j3, j4, j4', j5, j6, j7, j8⟩ hlt hi hs hm' ha
        have hit : i < ts.length := by omega
        obtain ⟨c, w0, g1, g2⟩ := cellOf hit
        have hw : vs'[i]? = some vs'[i] := List.getElem?_eq_getElem (by omega)
        have htt : ts[i]? = some ts[i] := List.getElem?_eq_getElem hit
        have hff : fs[i]? = some fs[i] := List.getElem?_eq_getElem (by omega)
        have hgg : gs[i]? = some fs[i] := (j8 i (Nat.le_refl _)).trans hff
        have hci := j5 i c _ g1 hw
        have htr := j6 i _ _ _ hw htt hgg
        rw [if_neg (Nat.lt_irrefl i)] at htr
        have hsub : ∀ b ∈ fs[i], b ∈ fs.flatten := fun b hb => List.mem_flatten.2 ⟨_, List.getElem_mem _, hb⟩
        obtain ⟨m2, w2, f2, e2, i2, h2, t2, s2, k2⟩ := hE hi j3 hk hci (Cell.get_put g2 _) htr (fun hb => (List.nodup_cons.1 hnd).1 (hsub _ hb))
          ((List.nodup_flatten.1 (List.nodup_cons.1 hnd).2).1 _ (List.getElem_mem _)) hm' (hall _ (List.getElem_mem hit)) (hdep _ (List.getElem_mem hit))
        rw [Cell.put_put] at h2
        have hPsub : ∀ b, (b = a ∨ b ∈ fs[i]) → b ∈ a :: fs.flatten := by
          rintro b (rfl | hb)
          · exact List.mem_cons_self
          · exact List.mem_cons_of_mem _ (hsub b hb)
        have hcells : ∀ (j : Nat) (c' : Cell α) (w : V α), cells[j]? = some c' → (vs'.set i w2)[j]? = some w → (cells'.set i (c.put false w2))[j]? = some (c'.put false w) := by
          intro j c' w hc' hw'
          by_cases hij : i = j
          · subst hij
            rw [g1] at hc'
            cases hc'
            rw [List.getElem?_set_self (by omega)] at hw'
            cases hw'
            exact List.getElem?_set_self (List.getElem?_eq_some_iff.1 hci).1
          · rw [List.getElem?_set_ne hij] at hw' ⊢
            exact j5 j c' w hc' hw'
        refine ⟨m2, e2, i2, j1.kept k2 (fun b j hb hp => hva b j hb (hPsub b hp)) (fun b hb => i2.stk_live (hs b (up_stk _ (hvs b hb)))), j2.trans (k2.mono hPsub), _,
          vs'.set i w2, gs.set i f2, h2, by simpa using j4, by simpa using j4', hcells, fun j w t f q1 q2 q3 => ?_, fun j f e q1 q2 => ?_, fun j hj => ?_⟩
        · by_cases hij : i = j
          · subst hij
            rw [List.getElem?_set_self (by omega)] at q1 q3
            cases q1
            rw [htt] at q2
            cases q2
            cases q3
            rw [if_pos (Nat.lt_succ_self i)]
            exact t2
          · obtain ⟨c', w0', g1', g2'⟩ := cellOf (List.getElem?_eq_some_iff.1 q2).1
            have hcj := hcells j c' w g1' q1
            rw [List.getElem?_set_ne hij] at q1 q3
            have hold := j6 j w t f q1 q2 q3
            have hcond : (if j < i + 1 then g t else t) = if j < i then g t else t := by
              by_cases hj : j < i
              · rw [if_pos hj, if_pos (by omega)]
              · rw [if_neg hj, if_neg (by omega)]
            rw [hcond]
            refine isTree_kept k2 i2 hold (fun b hb => i2.cell_live h2 (List.mem_of_getElem? hcj) (Cell.get_ptrs (Cell.get_put g2' w) hb)) fun b hb hp => ?_
            have hjt : j < ts.length := (List.getElem?_eq_some_iff.1 q2).1
            have hfj : fs[j]? = some fs[j] := List.getElem?_eq_getElem (by omega)
            rcases j7 j f _ q3 hfj b hb with hbf | hbl
            · rcases hp with rfl | hp
              · exact (List.nodup_cons.1 hnd).1 (List.mem_flatten.2 ⟨_, List.getElem_mem _, hbf⟩)
              · exact flatten_disjoint (List.nodup_cons.1 hnd).2 hij hff hfj hp hbf
            · rcases hp with rfl | hp
              · omega
              · have := hfl i _ hff b hp
                omega
        · by_cases hij : i = j
          · subst hij
            rw [List.getElem?_set_self (by omega)] at q1
            cases q1
            rw [hff] at q2
            cases q2
            intro b hb
            rcases s2 b hb with h | h
            · exact .inl h
            · exact .inr (j2.1.trans h)
          · rw [List.getElem?_set_ne hij] at q1
            exact j7 j f e q1 q2
        · rw [List.getElem?_set_ne (by omega)]
          exact j8 j (by omega)
      · have hd' : Deno m1 v (.arr a) := hd.kept k1 (fun _ _ _ => id) fun b hb => i1.stk_live (up_stk _ (hvs b hb))
        have his := h.kept k1 id (alive i1 (fun b hb => up_stk _ hb) hd')
        refine ⟨hd', k1.oth, cells, vs, fs, his, hlv, hlf, fun j c w q1 q2 => ?_, fun j w t f q1 q2 q3 => ?_, fun j f e q1 q2 b hb => .inl ?_, fun _ _ => rfl⟩
        · obtain ⟨c', q3, q4⟩ := hc j w q2
          rw [q1] at q3
          cases q3
          rw [q1]
          cases c <;> simp_all [Cell.get, Cell.put]
        · rw [if_neg (Nat.not_lt_zero j)]
          obtain ⟨c', q4, q5⟩ := hc j w q1
          exact isTree_kept k1 i1 (ht j w t f q1 q2 q3) (fun b hb => i1.cell_live his (List.mem_of_getElem? q4) (Cell.get_ptrs q5 hb)) fun _ _ => id
        · rw [q1] at q2
          cases q2
          exact hb)
  obtain ⟨m2, e2, i2, j1, j2, cells', vs', gs, j3, j4, j4', j5, j6, j7, -⟩ := res
  refine ⟨m2, cells', vs', gs, e2, i2, j3, j4, j4', j5, fun j w t f q1 q2 q3 => ?_, fun b hb => ?_, j2⟩
  · have := j6 j w t f q1 q2 q3
    rw [if_pos (by rw [hn]; exact (List.getElem?_eq_some_iff.1 q2).1)] at this
    exact this
  · obtain ⟨f, hf, hb⟩ := List.mem_flatten.1 hb
    obtain ⟨j, hj⟩ := List.getElem?_of_mem hf
    have hlt := (List.getElem?_eq_some_iff.1 hj).1
    have hfj : fs[j]? = some fs[j] := List.getElem?_eq_getElem (by omega)
    rcases j7 j f _ hj hfj b hb with h | h
    · exact .inl (List.mem_flatten.2 ⟨_, List.getElem_mem _, h⟩)
    · exact .inr h

/-- Any array of strings, in place. -/
theorem rep_tree [Env α] {re : List α → List α} {d : Nat} (hE : RepOk re d) {s : State α} {own : List Addr} (hi : Inv s own) {v : V α} {a : Addr} {same : Bool} (hd : Deno s.mem v (.arr a))
    {m : Nat} (hm : s.stk[m]? = some v) {t : Nested α} {fp : List Addr} (ht : IsTree s.mem (.arr a) t fp) (hns : ∀ k xs, t ≠ .nums k xs) (hva : ∀ b j, v = .ref b j → b ∉ fp) (hnd : fp.Nodup)
    (hall : t.Strings (fun xs => (re xs).length + 1 ≤ 2 ^ 30)) (hdep : t.depth ≤ d + 1) :
    ∃ (mem' : List (Option (Obj α))) (fp' : List Addr), strCall (replaceIn re) (d + 1) same v (.slot m) s = .ok () ⟨mem', s.stk⟩ ∧ Inv ⟨mem', s.stk⟩ own ∧
      IsTree mem' (.arr a) (t.mapText re) fp' ∧ (∀ b ∈ fp', b ∈ fp ∨ s.mem.length ≤ b) ∧ Oth (· ∈ fp) s.mem mem' := by
  cases ht with
  | nums h1 h2 h3 => exact absurd rfl (hns _ _)
  | @list _ o vs ts fs h1 h2 h3 h4 h5 h6 h7 =>
    cases hall with
    | list hall =>
      rw [depth_list] at hdep
      obtain ⟨m2, cells', vs', gs, e2, i2, ⟨rc2, g1⟩, g2, g2', g3, g4, g5, k2⟩ := rep_node (same := same) hE hi hd hm (k := o.kind) (n := o.size) (cells := o.cells) ⟨o.rc, h1⟩ (.inl h2) (vs := vs) hva h3 h4 h5
        (fun i w hw => ⟨_, h6 i w hw, rfl⟩) h7 hnd hall (fun t ht => by have := le_foldr (List.mem_map_of_mem (f := Nested.depth) ht); omega)
      refine ⟨m2, a :: gs.flatten, e2, i2, ?_, fun b hb => ?_, k2⟩
      · rw [mapText_list]
        refine .list (vs := vs') (fs := gs) g1 h2 (by simpa using h3) (by simpa using g2) (by simpa using g2') (fun i w hw => ?_) fun i w t f q1 q2 q3 => ?_
        · have hlt := (List.getElem?_eq_some_iff.1 hw).1
          exact g3 i _ w (h6 i vs[i] (List.getElem?_eq_getElem (by omega))) hw
        · rw [List.getElem?_map] at q2
          obtain ⟨t', q2', rfl⟩ := Option.map_eq_some_iff.1 q2
          exact g4 i w t' f q1 q2' q3
      · rcases List.mem_cons.1 hb with rfl | hb
        · exact .inl List.mem_cons_self
        · exact (g5 b hb).imp (List.mem_cons_of_mem _) id
  | @map _ o ks vs ts fs h1 h2 h3 h3' h4 h5 h6 h7 =>
    cases hall with
    | map hall =>
      rw [depth_map] at hdep
      obtain ⟨m2, cells', vs', gs, e2, i2, ⟨rc2, g1⟩, g2, g2', g3, g4, g5, k2⟩ := rep_node (same := same) hE hi hd hm (k := o.kind) (n := o.size) (cells := o.cells) ⟨o.rc, h1⟩ (.inr h2) (vs := vs) hva h3 h4 h5
        (fun i w hw => ⟨_, h6 i (ks[i]'(by have := (List.getElem?_eq_some_iff.1 hw).1; omega)) w (List.getElem?_eq_getElem _) hw, rfl⟩) h7 hnd hall
        (fun t ht => by have := le_foldr (List.mem_map_of_mem (f := Nested.depth) ht); omega)
      refine ⟨m2, a :: gs.flatten, e2, i2, ?_, fun b hb => ?_, k2⟩
      · rw [mapText_map]
        refine .map (vs := vs') (fs := gs) g1 h2 (by simpa using h3) (by simpa using h3') (by simpa using g2) (by simpa using g2') (fun i k w hk hw => ?_) fun i w t f q1 q2 q3 => ?_
        · have hlt := (List.getElem?_eq_some_iff.1 hw).1
          exact g3 i _ w (h6 i k vs[i] hk (List.getElem?_eq_getElem (by omega))) hw
        · rw [List.getElem?_map] at q2
          obtain ⟨t', q2', rfl⟩ := Option.map_eq_some_iff.1 q2
          exact g4 i w t' f q1 q2' q3
      · rcases List.mem_cons.1 hb with rfl | hb
        · exact .inl List.mem_cons_self
        · exact (g5 b hb).imp (List.mem_cons_of_mem _) id

theorem repOk [Env α] (re : List α → List α) (d : Nat) : RepOk re d := by
  induction d with
  | zero =>
    intro s own p j k n cells c w t fp m _ _ _ _ _ _ _ _ _ _ hd
    have := depth_pos t
    omega
  | succ d ih =>
    intro s own p j k n cells c w t fp m hi h hk hc hw ht hp hnd hm hall hdep
    have hd : Deno s.mem (.ref p j) w := .var h hk hc hw (isTree_plain ht)
    have arr : ∀ a, w = .arr a → (∀ k xs, t ≠ .nums k xs) → ∃ (mem' : List (Option (Obj α))) (w' : V α) (fp' : List Addr), strCall (replaceIn re) (d + 1) false (.ref p j) (.slot m) s = .ok () ⟨mem', s.stk⟩ ∧
        Inv ⟨mem', s.stk⟩ own ∧ Is mem' p k n (cells.set j (c.put false w')) ∧ IsTree mem' w' (t.mapText re) fp' ∧ (∀ b ∈ fp', b ∈ fp ∨ s.mem.length ≤ b) ∧
        Oth (fun b => b = p ∨ b ∈ fp) s.mem mem' := by
      rintro a rfl hns
      obtain ⟨m2, fp', e2, i2, t2, s2, k2⟩ := rep_tree (same := false) ih hi hd hm ht hns (fun b j' hb => by cases hb; exact hp) hnd hall hdep
      have his : Is m2 p k n cells := h.kept k2 hp (i2.stk_live (mem_stkPtrs hm (by simp [V.ptr])))
      refine ⟨m2, .arr a, fp', e2, i2, ?_, t2, s2, k2.mono fun b hb => .inr hb⟩
      have : cells.set j (c.put false (.arr a)) = cells := by
        have hput : c.put false (.arr a) = c := by cases c <;> simp_all [Cell.get, Cell.put]
        rw [hput]
        apply List.ext_getElem?
        intro b
        by_cases hb : j = b
        · subst hb; rw [List.getElem?_set_self (List.getElem?_eq_some_iff.1 hc).1, hc]
        · rw [List.getElem?_set_ne hb]
      rw [this]
      exact his
    cases ht with
    | num hs => cases hall
    | @nums a o k' xs h1 h2 h3 =>
      cases hall with
      | str hfit =>
        obtain ⟨ob, n1, n2, i1, k1⟩ := newStr_tot hi (re xs) hfit
        have hpl : p < s.mem.length := by obtain ⟨rc, h⟩ := h; exact lt_of_alive h
        have hp1 : Is (s.mem ++ [some ob]) p k n cells := by
          obtain ⟨rc, h⟩ := h
          exact ⟨rc, by rw [List.getElem?_append_left hpl]; exact h⟩
        obtain ⟨m4, e4, i4, h4, k4⟩ := assignRef_tot (s := ⟨s.mem ++ [some ob], s.stk⟩) (v := .arr s.mem.length) (own := own) (by simpa [V.ptr] using i1) hm hp1 hk hc hw id (.self id) (by simp)
        have hcl := (List.getElem?_eq_some_iff.1 hc).1
        have hel : Live m4 s.mem.length := i4.cell_live h4 (List.mem_of_getElem? (List.getElem?_set_self hcl)) (Cell.get_ptrs (Cell.get_put hw _) (by simp [V.ptr]))
        obtain ⟨rc, he⟩ : Is m4 s.mem.length ob.kind ob.size ob.cells := Is.kept (m1 := s.mem ++ [some ob]) ⟨ob.rc, by simp⟩ k4 (by omega) hel
        refine ⟨m4, _, [s.mem.length], ?_, i4, h4, ?_, by simp, (k1.oth.trans k4).mono fun b hb => .inl hb⟩
        · unfold strCall
          rw [bind_eq (atypeV_deno hd h1), if_pos h3.1]
          unfold replaceIn
          rw [bind_eq (textV_run hd h1 h3)]
          exact (bind_eq n1).trans e4
        · rw [mapText_str]
          exact .nums he ⟨by decide, by decide⟩ n2
    | list h1 h2 h3 h4 h5 h6 h7 => exact arr _ rfl (by simp)
    | map h1 h2 h3 h3' h4 h5 h6 h7 => exact arr _ rfl (by simp)

end Libube.Mem

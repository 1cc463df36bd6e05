import Verif.Spec.MemMove
import Verif.Props.MemString
import Verif.Props.MemAssign

/-! # Moving and swapping variables (C161, C162) -/

namespace Libube.MemProps

open Mem MemSpec

variable {α : Type}

theorem moveVar_run {s : State α} {n : Nat} {v : V α} (h : s.stk[n]? = some v) : moveVar n s = .ok v ⟨s.mem, s.stk.set n .nil⟩ := by
  unfold moveVar
  rw [bind_eq (readSlot h)]
  have hlt := (List.getElem?_eq_some_iff.1 h).1
  have : writeLoc (.slot n) .nil s = .ok () ⟨s.mem, s.stk.set n .nil⟩ := by simp [writeLoc, hlt]
  rw [bind_eq this]
  rfl

/-- The var moved is counted for the one that has it now. -/
theorem moved_inv [Env α] {s : State α} {own : List Addr} (hi : Inv s own) {n : Nat} {v : V α} (h : s.stk[n]? = some v) :
    Inv ⟨s.mem, s.stk.set n .nil⟩ (v.ptr.toList ++ own) :=
  ((eval_keep (lk := false) (.move n)).inv (by simpa using hi) (moveVar_run h) : _)

theorem shows_deno {s : State α} {own : List Addr} (hi : Inv s own) {n : Nat} {w : V α} (h : Displays s n w) : ∃ v, s.stk[n]? = some v ∧ Deno s.mem v w := by
  rcases h with ⟨hp, h⟩ | ⟨a, i, o, x, h1, h2, h3, h4, rfl⟩
  · exact stands_deno hi h (plain_iff.1 hp)
  · exact ⟨_, h1, .num (n := o.size) ⟨o.rc, h2⟩ h3.1 h3.2 h4⟩

/-- C161: `var y = std::move(x)` makes `y` what `x` was, a reference too, and `x` nil; no array changes, not even its count. -/
theorem move_new [Env α] {s : State α} {n : Nat} {v : V α} (h : s.stk[n]? = some v) :
    run (.decl (.move n)) s = .ok () ⟨s.mem, s.stk.set n .nil ++ [v]⟩ :=
  (bind_eq (m := eval (.move n)) (moveVar_run h)).trans rfl

theorem move_slot [Env α] {s : State α} (hr : Reach s) {n m : Nat} {t : V α} (h : (s.stk.set m .nil)[n]? = some t) (ht : Plain t) {w : V α} (hw : Displays s m w) :
    ∃ s', run (.assign n (.move m)) s = .ok () s' ∧ s'.stk = (s.stk.set m .nil).set n w ∧ AllSame s s' := by
  obtain ⟨own, hi⟩ := reach_inv hr
  obtain ⟨v, hv, hd⟩ := shows_deno hi hw
  obtain ⟨m1, e1, -, k1⟩ := assignSlot_tot (s := ⟨s.mem, s.stk.set m .nil⟩) (moved_inv hi hv) h (plain_iff.1 ht) hd
  refine ⟨_, (bind_eq (m := eval (.move m)) (moveVar_run hv)).trans ?_, rfl, all_same k1⟩
  unfold assign
  refine (bind_eq (readSlot (s := ⟨s.mem, s.stk.set m .nil⟩) h)).trans ?_
  cases t with
  | ref a i => exact absurd rfl (ht a i)
  | _ => exact e1

/-- C161: `x = std::move(y)` makes `x` what `y` shows, and `y` nil; no array changes. -/
theorem move_assign [Env α] {s : State α} (hr : Reach s) {n m : Nat} {t : V α} (h : s.stk[n]? = some t) (ht : Plain t) (hnm : n ≠ m) {w : V α} (hw : Displays s m w) :
    ∃ s', run (.assign n (.move m)) s = .ok () s' ∧ s'.stk = (s.stk.set m .nil).set n w ∧ AllSame s s' :=
  move_slot hr (by rw [List.getElem?_set_ne hnm.symm]; exact h) ht hw

/-- C161: `x = std::move(x)` keeps what `x` shows; a reference becomes the value itself. -/
theorem move_self [Env α] {s : State α} (hr : Reach s) {n : Nat} {w : V α} (hw : Displays s n w) :
    ∃ s', run (.assign n (.move n)) s = .ok () s' ∧ s'.stk = s.stk.set n w ∧ AllSame s s' := by
  obtain ⟨own, hi⟩ := reach_inv hr
  obtain ⟨v, hv, -⟩ := shows_deno hi hw
  obtain ⟨s', h1, h2, h3⟩ := move_slot hr (n := n) (m := n) (List.getElem?_set_self (List.getElem?_eq_some_iff.1 hv).1) (fun _ _ h => by cases h) hw
  exact ⟨s', h1, by rw [h2, List.set_set], h3⟩

/-- C161: `r = std::move(y)` for a reference to an element of an array of vars replaces that element; `y` is nil, nothing else changes. -/
theorem move_to_element [Env α] {s : State α} (hr : Reach s) {n r m i : Nat} {vs : List (V α)} (h : Vars s n vs) (hu : RefersAt s r n i) (hi : i < vs.length)
    {v : V α} (hv : s.stk[m]? = some v) (hp : Plain v) (hn : m ≠ n) :
    ∃ s', run (.assign r (.move m)) s = .ok () s' ∧ Vars s' n (vs.set i v) ∧ s'.stk = s.stk.set m .nil ∧ OthersSame s s' n := by
  obtain ⟨own, a, cells, hva⟩ := va_of_vars hr h
  obtain ⟨a', g1, g2⟩ := hu
  rw [hva.slot] at g1
  cases g1
  have hmr : m ≠ r := by rintro rfl; rw [hv] at g2; cases g2; exact hp _ _ rfl
  have i1 := moved_inv hva.inv hv
  have hs1 : (s.stk.set m .nil)[n]? = some (.arr a) := by rw [List.getElem?_set_ne hn]; exact hva.slot
  have hcell := hva.elem i _ (List.getElem?_eq_getElem hi)
  have hcl := hva.clean _ (List.mem_of_getElem? hcell)
  obtain ⟨m2, e2, i2, h2, k2⟩ := assignRef_tot (s := ⟨s.mem, s.stk.set m .nil⟩) i1 (r := r) (a := a) (i := i) (by rw [List.getElem?_set_ne hmr]; exact g2) hva.is (.inl rfl) hcell rfl hcl
    (.self (plain_iff.1 hp)) (fun e => hp _ _ e)
  have hclt := (List.getElem?_eq_some_iff.1 hcell).1
  have h4 : VA ⟨m2, s.stk.set m .nil⟩ own n a (vs.set i v) (cells.set i (.var v)) := by
    refine ⟨i2, hs1, ?_, fun j x hj => ?_, set_clean hva.clean (plain_iff.1 hp)⟩
    · rw [List.length_set]
      exact h2
    · by_cases hij : i = j
      · subst hij
        rw [List.getElem?_set_self hi] at hj
        cases hj
        exact List.getElem?_set_self hclt
      · rw [List.getElem?_set_ne hij] at hj ⊢
        exact hva.elem j x hj
  exact ⟨⟨m2, s.stk.set m .nil⟩, (bind_eq (m := eval (.move m)) (moveVar_run hv)).trans e2, h4.vars, rfl, oth_same hva.slot hva.is.live k2⟩

/-- C161: `x.push(std::move(y))` adds what `y` was; `y` is nil, nothing else changes. -/
theorem move_push [Env α] {s : State α} (hr : Reach s) {n m : Nat} {vs : List (V α)} (h : Vars s n vs) (hf : Fits vs)
    {v : V α} (hv : s.stk[m]? = some v) (hp : Plain v) (hn : m ≠ n) :
    ∃ s', run (.push n (.move m)) s = .ok () s' ∧ Vars s' n (vs ++ [v]) ∧ s'.stk = s.stk.set m .nil ∧ OthersSame s s' n := by
  have hf : vs.length + 2 ≤ 2 ^ 30 := hf
  obtain ⟨own, a, cells, hva⟩ := va_of_vars hr h
  have h1 : VA ⟨s.mem, s.stk.set m .nil⟩ (v.ptr.toList ++ own) n a vs cells :=
    ⟨moved_inv hva.inv hv, by rw [List.getElem?_set_ne hn]; exact hva.slot, hva.is, hva.elem, hva.clean⟩
  obtain ⟨m2, c2, e2, h2, k2⟩ := push_va h1 (by omega) (.self (plain_iff.1 hp)) (fun j e => absurd e (hp _ _))
  exact ⟨⟨m2, s.stk.set m .nil⟩, (bind_eq (m := eval (.move m)) (moveVar_run hv)).trans e2, h2.vars, rfl, oth_same hva.slot hva.is.live k2⟩

/-! ## Swapping -/

/-- What a variable shows stays, if no array changes. -/
theorem shows_same [Env α] {s s' : State α} (hr : Reach s') {n m : Nat} {w : V α} (h : Displays s n w) (hs : AllSame s s') (hv : s'.stk[m]? = s.stk[n]?) : Displays s' m w := by
  obtain ⟨own, hi⟩ := reach_inv hr
  have key : ∀ {a i o}, s.stk[n]? = some (.ref a i) → s.mem[a]? = some (some o) → ∃ o', s'.stk[m]? = some (.ref a i) ∧ s'.mem[a]? = some (some o') ∧ o'.kind = o.kind ∧ o'.cells = o.cells := by
    intro a i o h1 h2
    have h3 := hv.trans h1
    obtain ⟨o1, h4⟩ := hi.stk_live (mem_stkPtrs h3 (a := a) (by simp [V.ptr]))
    rcases hs.1 a o h2 with h5 | ⟨o', h5, h6, -, h7⟩
    · rw [h4] at h5; cases h5
    · exact ⟨o', h3, h5, h6, h7⟩
  rcases h with ⟨hp, h⟩ | ⟨a, i, o, x, h1, h2, h3, h4, rfl⟩
  · refine .inl ⟨hp, ?_⟩
    cases h with
    | var h => exact .var (hv.trans h)
    | elem h1 h2 h3 =>
      obtain ⟨o', g1, g2, -, g3⟩ := key h1 h2
      exact .elem g1 g2 (by rw [g3]; exact h3)
    | value h1 h2 h3 =>
      obtain ⟨o', g1, g2, -, g3⟩ := key h1 h2
      exact .value g1 g2 (by rw [g3]; exact h3)
  · obtain ⟨o', g1, g2, g3, g4⟩ := key h1 h2
    exact .inr ⟨a, i, o', x, g1, g2, by rw [g3]; exact h3, by rw [g4]; exact h4, by rw [g3]⟩

theorem shows_get {s : State α} {n : Nat} {w : V α} (h : Displays s n w) : ∃ v, s.stk[n]? = some v := by
  rcases h with ⟨-, h⟩ | ⟨a, i, o, x, h, -⟩
  · cases h with
    | var h => exact ⟨_, h⟩
    | elem h _ _ => exact ⟨_, h⟩
    | value h _ _ => exact ⟨_, h⟩
  · exact ⟨_, h⟩

/-- C162: after `std::swap(x, y)` each of the two is what the other showed; references become the values themselves.
    No array changes, so elements referred to are not exchanged; `x` may be `y`. -/
theorem swap_values [Env α] {s : State α} (hr : Reach s) {n m : Nat} {u w : V α} (hn : Displays s n w) (hm : Displays s m u) :
    ∃ s', exec (swapping n m s.stk.length) s = .ok () s' ∧ s'.stk = (s.stk.set n u).set m w ∧ AllSame s s' := by
  obtain ⟨v, hv⟩ := shows_get hn
  obtain ⟨v', hv'⟩ := shows_get hm
  have hnl := (List.getElem?_eq_some_iff.1 hv).1
  have hml := (List.getElem?_eq_some_iff.1 hv').1
  have e1 := move_new hv
  obtain ⟨s1, hs1⟩ : ∃ s1 : State α, s1 = ⟨s.mem, s.stk.set n .nil ++ [v]⟩ := ⟨_, rfl⟩
  rw [← hs1] at e1
  have hr1 : Reach s1 := .ok hr e1
  have a1 : AllSame s s1 := by rw [hs1]; exact all_same (Oth.refl _ _)
  have st1 : s1.stk = s.stk.set n .nil ++ [v] := by rw [hs1]
  have g1 : s1.stk[n]? = some .nil := by rw [st1, List.getElem?_append_left (by simpa using hnl), List.getElem?_set_self hnl]
  have t1 : s1.stk[s.stk.length]? = some v := by rw [st1, List.getElem?_append_right (by simp)]; simp
  -- what the second shows now
  obtain ⟨u', hu', huu⟩ : ∃ u', Displays s1 m u' ∧ ((n ≠ m → u' = u) ∧ (n = m → u' = .nil)) := by
    by_cases hnm : n = m
    · subst hnm
      exact ⟨.nil, .inl ⟨(fun _ _ h => by cases h), .var g1⟩, fun h => absurd rfl h, fun _ => rfl⟩
    · refine ⟨u, shows_same hr1 hm a1 ?_, fun _ => rfl, fun h => absurd h hnm⟩
      rw [st1, List.getElem?_append_left (by simpa using hml), List.getElem?_set_ne hnm]
  have gn : (s1.stk.set m .nil)[n]? = some .nil := by
    by_cases hnm : m = n
    · subst hnm
      exact List.getElem?_set_self (by rw [st1]; simp; omega)
    · rw [List.getElem?_set_ne hnm]; exact g1
  obtain ⟨s2, e2, st2, a2⟩ := move_slot hr1 gn (fun _ _ h => by cases h) hu'
  have hr2 : Reach s2 := .ok hr1 e2
  have l2 : s2.stk.length = s.stk.length + 1 := by rw [st2, st1]; simp
  have t2 : s2.stk[s.stk.length]? = some v := by
    rw [st2, List.getElem?_set_ne (by omega), List.getElem?_set_ne (by omega)]; exact t1
  have w2 : Displays s2 s.stk.length w := shows_same hr2 hn (all_same_trans a1 a2) (t2.trans hv.symm)
  have gm : ∃ t, (s2.stk.set s.stk.length .nil)[m]? = some t ∧ Plain t := by
    refine ⟨.nil, ?_, fun _ _ h => by cases h⟩
    rw [List.getElem?_set_ne (by omega), st2]
    by_cases hnm : n = m
    · rw [hnm, List.getElem?_set_self (by rw [st1]; simp; omega), huu.2 hnm]
    · rw [List.getElem?_set_ne hnm, List.getElem?_set_self (by rw [st1]; simp; omega)]
  obtain ⟨t, gt, gp⟩ := gm
  obtain ⟨s3, e3, st3, a3⟩ := move_slot hr2 gt gp w2
  have f3 : s3.stk = (s.stk.set n u).set m w ++ [.nil] := by
    rw [st3, st2, st1]
    refine List.ext_getElem? fun j => ?_
    by_cases hj : j < s.stk.length
    · rw [List.getElem?_append_left (by simpa using hj)]
      by_cases hjm : m = j
      · subst hjm
        rw [List.getElem?_set_self (by simp; omega), List.getElem?_set_self (by simp; omega)]
      · rw [List.getElem?_set_ne hjm, List.getElem?_set_ne hjm, List.getElem?_set_ne (by omega)]
        by_cases hjn : n = j
        · subst hjn
          rw [List.getElem?_set_self (by simp; omega), List.getElem?_set_self hj, huu.1 (fun h => hjm h.symm)]
        · rw [List.getElem?_set_ne hjn, List.getElem?_set_ne hjn, List.getElem?_set_ne hjm, List.getElem?_append_left (by simpa using hj), List.getElem?_set_ne hjn]
    · rw [List.getElem?_set_ne (by omega)]
      by_cases hje : s.stk.length = j
      · subst hje
        rw [List.getElem?_set_self (by simp), List.getElem?_append_right (by simp)]
        simp
      · rw [List.getElem?_eq_none (by simp; omega), List.getElem?_eq_none (by simp; omega)]
  refine ⟨⟨s3.mem, (s.stk.set n u).set m w⟩, ?_, rfl, all_same_trans a1 (all_same_trans a2 ⟨a3.1, a3.2⟩)⟩
  have e4 : run (.leave : Stmt α) s3 = .ok () ⟨s3.mem, (s.stk.set n u).set m w⟩ := by
    show (match s3.stk.getLast? with
      | none => R.ub .badPointer
      | some v => detachV v { s3 with stk := s3.stk.dropLast }) = _
    rw [f3, List.getLast?_concat, List.dropLast_concat]
    exact detach_none rfl _
  unfold swapping
  simp only [exec, e1, e2, e3, e4]

/-! ## Cases that meet the hypotheses, and elements that are not exchanged -/

section

attribute [local instance] intEnv

/-- `x = [1, 2]; y = ["A", 5]; var r = x[0]; var q = x[1]; var e = y[0]; z = 9` -/
def progMove : List (Stmt Int) := [.decl (.num .int 1), .push 0 (.num .int 2), .decl .nil, .push 1 (.str [65]), .push 1 (.num .int 5), .decl (.elem 0 0), .decl (.elem 0 1),
  .decl (.elem 1 0), .decl (.num .int 9)]

theorem progMove_reach : Reach (final progMove) := reach_exec progMove .start (by decide +kernel)

theorem progMove_0 : (final progMove).mem[0]? = some (some ⟨.int, 2, 3, .raw (some 1) :: .raw (some 2) :: List.replicate 6 (.raw none)⟩) := by decide +kernel

theorem progMove_vars : Vars (final progMove) 1 [.arr 1, .num .int 5] := by
  refine ⟨2, ⟨.var, 2, 2, [.var (.arr 1), .var (.num .int 5), .var .nil, .var .nil, .var .nil, .var .nil, .var .nil, .var .nil]⟩,
    by decide +kernel, by decide +kernel, rfl, rfl, fun i c hc => ?_⟩
  match i, hc with
  | 0, hc => simpa using hc
  | 1, hc => simpa using hc

theorem progMove_r : Displays (final progMove) 2 (.num .int 1) :=
  .inr ⟨0, 0, _, 1, by decide +kernel, progMove_0, ⟨⟨by decide, by decide⟩, by decide⟩, rfl, rfl⟩

theorem progMove_q : Displays (final progMove) 3 (.num .int 2) :=
  .inr ⟨0, 1, _, 2, by decide +kernel, progMove_0, ⟨⟨by decide, by decide⟩, by decide⟩, rfl, rfl⟩

theorem progMove_e : Displays (final progMove) 4 (.arr 1) :=
  .inl ⟨fun _ _ h => (by cases h), .elem (a := 2) (i := 0)
    (o := ⟨.var, 2, 2, [.var (.arr 1), .var (.num .int 5), .var .nil, .var .nil, .var .nil, .var .nil, .var .nil, .var .nil]⟩) (by decide +kernel) (by decide +kernel) rfl⟩

/-- Hypotheses of `move_new` and `move_assign`: `var u = std::move(x)` and `x = std::move(e)`. -/
example : (∃ s', run (.decl (.move 0)) (final progMove) = .ok () s' ∧ s'.stk[0]? = some .nil ∧ s'.stk[6]? = some (.arr 0)) ∧
    ∃ s', run (.assign 0 (.move 4)) (final progMove) = .ok () s' ∧ s'.stk[0]? = some (.arr 1) ∧ s'.stk[4]? = some .nil := by
  refine ⟨⟨_, move_new (v := .arr 0) (by decide +kernel), by decide +kernel, by decide +kernel⟩, ?_⟩
  obtain ⟨s', h1, h2, -⟩ := move_assign progMove_reach (n := 0) (t := .arr 0) (by decide +kernel) (fun _ _ h => by cases h) (by decide) progMove_e
  exact ⟨s', h1, by rw [h2]; decide +kernel, by rw [h2]; decide +kernel⟩

/-- Hypotheses of `move_self`: `q = std::move(q)` and `z = std::move(z)`. -/
example : (∃ s', run (.assign 3 (.move 3)) (final progMove) = .ok () s' ∧ s'.stk[3]? = some (.num .int 2)) ∧
    ∃ s', run (.assign 5 (.move 5)) (final progMove) = .ok () s' ∧ s'.stk[5]? = some (.num .int 9) := by
  obtain ⟨s1, h1, h2, -⟩ := move_self progMove_reach progMove_q
  obtain ⟨s2, h3, h4, -⟩ := move_self progMove_reach (n := 5) (w := .num .int 9) (.inl ⟨(fun _ _ h => by cases h), .var (by decide +kernel)⟩)
  exact ⟨⟨s1, h1, by rw [h2]; decide +kernel⟩, s2, h3, by rw [h4]; decide +kernel⟩

/-- Hypotheses of `move_to_element` and `move_push`: `e = std::move(x)` and `y.push(std::move(x))`. -/
example : (∃ s', run (.assign 4 (.move 0)) (final progMove) = .ok () s' ∧ Vars s' 1 [.arr 0, .num .int 5]) ∧
    ∃ s', run (.push 1 (.move 0)) (final progMove) = .ok () s' ∧ Vars s' 1 [.arr 1, .num .int 5, .arr 0] := by
  obtain ⟨s1, h1, h2, -⟩ := move_to_element progMove_reach progMove_vars (r := 4) (i := 0) (m := 0) (v := .arr 0) ⟨2, by decide +kernel, by decide +kernel⟩ (by decide) (by decide +kernel)
    (fun _ _ h => by cases h) (by decide)
  obtain ⟨s2, h3, h4, -⟩ := move_push progMove_reach progMove_vars (m := 0) (v := .arr 0) (by unfold Fits; decide) (by decide +kernel) (fun _ _ h => by cases h) (by decide)
  exact ⟨⟨s1, h1, h2⟩, s2, h3, h4⟩

/-- Hypotheses of `swap_values`: `std::swap(x, y)`, `std::swap(r, q)`, `std::swap(e, z)`. -/
example : Displays (final progMove) 0 (.arr 0) ∧ Displays (final progMove) 1 (.arr 2) ∧ Displays (final progMove) 2 (.num .int 1) ∧ Displays (final progMove) 3 (.num .int 2) ∧
    Displays (final progMove) 4 (.arr 1) ∧ Displays (final progMove) 5 (.num .int 9) :=
  ⟨.inl ⟨fun _ _ h => (by cases h), .var (by decide +kernel)⟩, .inl ⟨fun _ _ h => (by cases h), .var (by decide +kernel)⟩, progMove_r, progMove_q, progMove_e,
    .inl ⟨fun _ _ h => (by cases h), .var (by decide +kernel)⟩⟩

/-- What one may expect: swapping references to two elements exchanges the elements. -/
def SwapElements : Prop := ∀ (s s' : State Int) (n p q i j : Nat) (xs : List Int) (x y : Int), Reach s → Contents s n .int xs → RefersAt s p n i → RefersAt s q n j →
  xs[i]? = some x → xs[j]? = some y → exec (swapping p q s.stk.length) s = .ok () s' → Contents s' n .int ((xs.set i y).set j x)

/-- C162: swapping references does not exchange the elements, and they are no references any more. -/
theorem swap_elements_not : ¬ SwapElements ∧ ∃ s', exec (swapping 2 3 6) (final progMove) = .ok () s' ∧ Contents s' 0 .int [1, 2] ∧
    s'.stk[2]? = some (.num .int 2) ∧ s'.stk[3]? = some (.num .int 1) := by
  have hc : Contents (final progMove) 0 .int [1, 2] := contents_of [1, 2] (a := 0) (by decide +kernel) progMove_0 rfl rfl
  have he : exec (swapping 2 3 6) (final progMove) = .ok () (final (progMove ++ swapping 2 3 6)) := by decide +kernel
  have hm : (final (progMove ++ swapping 2 3 6)).mem[0]? = some (some ⟨.int, 2, 1, .raw (some 1) :: .raw (some 2) :: List.replicate 6 (.raw none)⟩) := by decide +kernel
  have hs : (final (progMove ++ swapping 2 3 6)).stk[0]? = some (.arr 0) := by decide +kernel
  refine ⟨fun h => ?_, _, he, contents_of [1, 2] (a := 0) hs hm rfl rfl, by decide +kernel, by decide +kernel⟩
  obtain ⟨a, o, h1, h2, -, -, h3⟩ := h (final progMove) _ 0 2 3 0 1 [1, 2] 1 2 progMove_reach hc ⟨0, by decide +kernel, by decide +kernel⟩ ⟨0, by decide +kernel, by decide +kernel⟩ rfl rfl (by rw [show (final progMove).stk.length = 6 by decide +kernel]; exact he)
  rw [hs] at h1
  cases h1
  rw [hm] at h2
  cases h2
  have := h3 0 2 rfl
  revert this
  decide

end

#print axioms move_new
#print axioms move_assign
#print axioms move_self
#print axioms move_to_element
#print axioms move_push
#print axioms swap_values
#print axioms swap_elements_not

end Libube.MemProps

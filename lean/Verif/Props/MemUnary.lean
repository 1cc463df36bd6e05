import Verif.Lemmas.MemUnary
import Verif.Props.MemAssign

/-! # Functions applied to every element (C65, C97) -/

namespace Libube.MemProps

open Mem MemSpec

variable {α : Type}

theorem tree_live {mem : List (Option (Obj α))} {v : V α} {t : Nested α} {fp : List Addr} (h : IsTree mem v t fp) : ∀ b ∈ fp, Live mem b := by
  induction h with
  | num h => simp
  | nums h1 _ _ => intro b hb; rw [List.mem_singleton] at hb; subst hb; exact ⟨_, h1⟩
  | @list a o vs ts fs h1 h2 h3 h4 h5 h6 h7 ih =>
    intro b hb
    rcases List.mem_cons.1 hb with rfl | hb
    · exact ⟨_, h1⟩
    · obtain ⟨f, hf, hb⟩ := List.mem_flatten.1 hb
      obtain ⟨i, hi⟩ := List.getElem?_of_mem hf
      have hlt := (List.getElem?_eq_some_iff.1 hi).1
      exact ih i _ _ f (List.getElem?_eq_getElem (by omega)) (List.getElem?_eq_getElem (by omega)) hi b hb
  | @map a o ks vs ts fs h1 h2 h3 h3' h4 h5 h6 h7 ih =>
    intro b hb
    rcases List.mem_cons.1 hb with rfl | hb
    · exact ⟨_, h1⟩
    · obtain ⟨f, hf, hb⟩ := List.mem_flatten.1 hb
      obtain ⟨i, hi⟩ := List.getElem?_of_mem hf
      have hlt := (List.getElem?_eq_some_iff.1 hi).1
      exact ih i _ _ f (List.getElem?_eq_getElem (by omega)) (List.getElem?_eq_getElem (by omega)) hi b hb

theorem beside {s : State α} {mem : List (Option (Obj α))} {stk : List (V α)} {fp : List Addr} (h : Oth (· ∈ fp) s.mem mem) (hl : ∀ b ∈ fp, Live s.mem b) : Beside s ⟨mem, stk⟩ fp := by
  refine ⟨fun b o hbf ho => ?_, fun b hb => ?_⟩
  · have hb := lt_of_alive ho
    show mem[b]? = _ ∨ _
    cases hm : mem[b]? with
    | none => rw [List.getElem?_eq_none_iff] at hm; have := h.1; omega
    | some q =>
      cases q with
      | none => exact .inl rfl
      | some q =>
        obtain ⟨o2, f1, f2, f3, f4⟩ := h.2 b q hbf hb hm
        rw [ho] at f1
        cases f1
        exact .inr ⟨q, rfl, f2, f3, f4⟩
  · have hlb := (List.getElem?_eq_some_iff.1 hb).1
    show mem[b]? = _
    cases hm : mem[b]? with
    | none => rw [List.getElem?_eq_none_iff] at hm; have := h.1; omega
    | some q =>
      cases q with
      | none => rfl
      | some q =>
        by_cases hbf : b ∈ fp
        · obtain ⟨o, ho⟩ := hl b hbf
          rw [hb] at ho
          cases ho
        · obtain ⟨o2, f1, -⟩ := h.2 b q hbf hlb hm
          rw [hb] at f1
          cases f1

/-! ## In place -/

/-- C65: in place, the function is applied to each number exactly once, at any depth, and the structure is kept; no other array changes.
    Missing: data in which an array occurs at two places (`shared_twice`) and arrays of `cdouble` (`cdouble_lost`). -/
theorem in_place_partial [Env α] (F : Fn α) {s : State α} (hr : Reach s) {n : Nat} {v : V α} (hv : s.stk[n]? = some v) {t : Nested α} {fp : List Addr} (h : IsTree s.mem v t fp)
    (hnd : fp.Nodup) (hall : t.All (Applies F) (· ≠ .cdouble)) {d : Nat} (hd : t.depth ≤ d) :
    ∃ s' w, applyTo F d n n s = .ok w s' ∧ s'.stk = s.stk.set n w ∧ IsTree s'.mem w (t.mapNums F.f Env.conv) fp ∧ Beside s s' fp := by
  obtain ⟨own, hi⟩ := reach_inv hr
  have hlt := (List.getElem?_eq_some_iff.1 hv).1
  -- the copy that is returned
  have fin : ∀ m2 w, scalar F d v (.slot n) s = .ok () ⟨m2, s.stk.set n w⟩ → Inv ⟨m2, s.stk.set n w⟩ own → IsTree m2 w (t.mapNums F.f Env.conv) fp → Oth (· ∈ fp) s.mem m2 →
      ∃ s' w, applyTo F d n n s = .ok w s' ∧ s'.stk = s.stk.set n w ∧ IsTree s'.mem w (t.mapNums F.f Env.conv) fp ∧ Beside s s' fp := by
    intro m2 w e2 i2 t2 k2
    have hs2 : (s.stk.set n w)[n]? = some w := List.getElem?_set_self hlt
    have hw : ∀ b ∈ w.ptr.toList, b ∈ stkPtrs (s.stk.set n w) := fun b hb => mem_stkPtrs hs2 hb
    obtain ⟨m3, e3, i3, k3, l3⟩ := attach_tot (s := ⟨m2, s.stk.set n w⟩) i2 (v := w) (fun b hb => i2.stk_live (hw b hb))
    refine ⟨⟨m3, s.stk.set n w⟩, w, ?_, rfl, isTree_kept k3 i3 t2 (fun b hb => i3.stk_live (hw b hb)) fun _ _ => id, beside (k2.trans k3.oth) (tree_live h)⟩
    unfold applyTo
    refine (bind_eq (readSlot hv)).trans ?_
    refine (bind_eq e2).trans ?_
    refine (bind_eq (readSlot (s := ⟨m2, s.stk.set n w⟩) hs2)).trans ?_
    unfold copyV
    exact (bind_eq e3).trans rfl
  have hset : s.stk.set n v = s.stk := by
    apply List.ext_getElem?
    intro b
    by_cases hb : n = b
    · subst hb; rw [List.getElem?_set_self hlt, hv]
    · rw [List.getElem?_set_ne hb]
  have hd0 : 0 < d := Nat.lt_of_lt_of_le (depth_pos t) hd
  obtain ⟨d, rfl⟩ : ∃ e, d = e + 1 := ⟨d - 1, by omega⟩
  have arr : ∀ a, v = .arr a → ∃ s' w, applyTo F (d + 1) n n s = .ok w s' ∧ s'.stk = s.stk.set n w ∧ IsTree s'.mem w (t.mapNums F.f Env.conv) fp ∧ Beside s s' fp := by
    rintro a rfl
    obtain ⟨m2, e2, i2, t2, k2⟩ := scalar_tree (each_scalar F) (elemOk (each_scalar F) d) hi (.self id) hv h (fun _ _ hb => by cases hb) hnd hall hd
    exact fin m2 (.arr a) (by rw [hset]; exact e2) (by rw [hset]; exact i2) t2 k2
  cases h with
  | @num k x hs =>
    cases hall with
    | num hg =>
      obtain ⟨e1, e2⟩ := number_get (s := s) (v := .num k x) (.self id) hs.2
      have e3 := newNum_scalar hg.2 (F.f k x).2 s
      obtain ⟨m4, e4, i4, k4⟩ := assignSlot_tot (v := .num (F.f k x).1 (F.f k x).2) (own := own) (by simpa [V.ptr] using hi) hv id (.self id)
      refine fin m4 _ ?_ i4 (by rw [Nested.mapNums]; exact .num hg.2) k4.oth
      unfold scalar
      rw [bind_eq e1]
      simp only [hg.1, if_true]
      rw [bind_eq e2]
      refine (bind_eq e3).trans ?_
      unfold assign
      exact (bind_eq (readSlot hv)).trans e4
  | nums h1 h2 h3 => exact arr _ rfl
  | list h1 h2 h3 h4 h5 h6 h7 => exact arr _ rfl
  | map h1 h2 h3 h3' h4 h5 h6 h7 => exact arr _ rfl

/-! ## New arrays -/

/-- C97: `f(x, y)` for two arrays of numbers makes the first elements of `y` the values for the elements of `x`; `x` and all other arrays are as they were. -/
theorem apply_to_array [Env α] (F : Fn α) {s : State α} (hr : Reach s) {n m : Nat} {a b : Addr} (hn : s.stk[n]? = some (.arr a)) (hm : s.stk[m]? = some (.arr b)) (hab : a ≠ b)
    {k k' : Kind} {xs ys : List α} (hx : Contents s n k xs) (hy : Contents s m k' ys) (hk : Scalar k) (hk' : Number k') (hl : xs.length ≤ ys.length)
    (hg : ∀ x ∈ xs, Applies F k x) {d : Nat} (hd : 2 ≤ d) :
    ∃ s', applyTo F d n m s = .ok (.arr b) s' ∧ s'.stk = s.stk ∧
      Contents s' m k' (xs.map (fun x => Env.conv (F.f k x).1 k' (F.f k x).2) ++ ys.drop xs.length) ∧ Beside s s' [b] := by
  obtain ⟨own, hi⟩ := reach_inv hr
  obtain ⟨a', o, h1, h2, h3⟩ := hx
  rw [hn] at h1
  cases h1
  obtain ⟨b', p, g1, g2, g3, g4, g5⟩ := hy
  rw [hm] at g1
  cases g1
  subst g3
  obtain ⟨d, rfl⟩ : ∃ e, d = e + 2 := ⟨d - 2, by omega⟩
  obtain ⟨m2, cells', e2, i2, q1, q2, q3, k2⟩ := scalar_numsTo (each_scalar F) (d := d) hi (mem_stkPtrs hn (by simp [V.ptr])) hab hm h2 hk.1 hk.2 h3 hg trivial hk' (n' := p.size) (cells := p.cells) ⟨p.rc, g2⟩
    (fun j hj => ⟨_, g5 j _ (List.getElem?_eq_getElem (by omega))⟩)
  obtain ⟨m3, e3, i3, k3, l3⟩ := attach_tot (s := ⟨m2, s.stk⟩) i2 (v := .arr b) (fun c hc => i2.stk_live (mem_stkPtrs hm hc))
  obtain ⟨rc, q1⟩ := q1.kept k3 id (l3 b q1.live)
  refine ⟨⟨m3, s.stk⟩, ?_, rfl, ⟨b, _, hm, q1, rfl, by simp; omega, fun j y hj => ?_⟩, beside ((k2.mono (by simp)).trans k3.oth) (by simpa using ⟨p, g2⟩)⟩
  · unfold applyTo
    refine (bind_eq (readSlot hn)).trans ?_
    refine (bind_eq e2).trans ?_
    refine (bind_eq (readSlot (s := ⟨m2, s.stk⟩) hm)).trans ?_
    unfold copyV
    exact (bind_eq e3).trans rfl
  · rw [List.getElem?_append] at hj
    split at hj
    · rw [List.getElem?_map] at hj
      obtain ⟨x, hx, rfl⟩ := Option.map_eq_some_iff.1 hj
      exact q2 j x hx
    · rename_i hlt
      simp only [List.length_map, Nat.not_lt] at hlt
      rw [List.getElem?_drop, List.length_map, Nat.add_sub_cancel' hlt] at hj
      rw [q3 j hlt]
      exact g5 j y hj

/-- C97: `f(x)` for an array of numbers is a new array of the values; `x` and all other arrays are as they were.
    Missing: arrays of vars (`new_nested_throws`) and of `cdouble`. -/
theorem apply_new_partial [Env α] (F : Fn α) {s : State α} (hr : Reach s) {n : Nat} {k : Kind} {xs : List α} (hx : Contents s n k xs) (hk : Scalar k) (hf : Fits xs)
    (hg : ∀ x ∈ xs, Applies F k x) {d : Nat} (hd : 2 ≤ d) :
    ∃ s' o, applyNew F d n s = .ok (.arr s.mem.length) s' ∧ s'.stk = s.stk ∧ s'.mem[s.mem.length]? = some (some o) ∧
      Elements o k (xs.map fun x => Env.conv (F.f k x).1 k (F.f k x).2) ∧ AllSame s s' := by
  have hf : xs.length + 2 ≤ 2 ^ 30 := hf
  obtain ⟨own, hi⟩ := reach_inv hr
  obtain ⟨a, o, h1, h2, h3⟩ := hx
  have h30 := h3
  obtain ⟨rfl, h4, h5⟩ := h30
  obtain ⟨d, rfl⟩ : ∃ e, d = e + 2 := ⟨d - 2, by omega⟩
  have ha : a < s.mem.length := lt_of_alive h2
  -- the new array
  obtain ⟨cells, c1, c2, c3, -, -⟩ := resizeObj_run (o := (⟨o.kind, 0, 1, []⟩ : Obj α)) (m := o.size) hk.1 (by simp) (by omega)
  let ob : Obj α := ⟨o.kind, o.size, 1, cells⟩
  have e1 : newHeap o.size (some o.kind) s = .ok s.mem.length { s with mem := s.mem ++ [some ob] } := by
    unfold newHeap
    simp only [Option.getD_some, c1]
    rfl
  obtain ⟨i1, -, -⟩ := newHeap_ok e1 hi
  have k1 : Kept s.mem (s.mem ++ [some ob]) := ⟨by simp, fun b o' _ hb ho => by
    rw [List.getElem?_append_left hb] at ho
    exact ⟨o', ho, rfl, rfl, rfl⟩⟩
  -- the variable for it
  have i2 : Inv ⟨s.mem ++ [some ob], s.stk ++ [.nil]⟩ (s.mem.length :: own) := Inv.push (s := ⟨s.mem ++ [some ob], s.stk⟩) (v := .nil) (by simpa [V.ptr] using i1)
  have hs2 : (s.stk ++ [(.nil : V α)])[s.stk.length]? = some .nil := by simp
  obtain ⟨m3, e3, i3, k3⟩ := assignSlot_tot (v := .arr s.mem.length) (own := own) i2 hs2 id (.self id)
  simp only [set_last] at e3 i3
  have hlast : s.mem.length ∈ stkPtrs (s.stk ++ [(.arr s.mem.length : V α)]) := by rw [stkPtrs_append]; simp [V.ptr]
  have hob : Is m3 s.mem.length o.kind o.size cells := Is.kept (m1 := s.mem ++ [some ob]) ⟨1, by simp [ob]⟩ k3 id (i3.stk_live hlast)
  have has : a ∈ stkPtrs s.stk := mem_stkPtrs h1 (by simp [V.ptr])
  obtain ⟨rc3, ho3⟩ : Is m3 a o.kind o.size o.cells := Is.kept (m1 := s.mem) ⟨o.rc, h2⟩ (k1.trans k3) id (i3.stk_live (up_stk _ has))
  obtain ⟨m4, cells', e4, i4, q1, q2, -, k4⟩ := scalar_numsTo (each_scalar F) (d := d) (m := s.stk.length) i3 (up_stk _ has) (by omega) (by simp) ho3 hk.1 hk.2 h3 hg trivial hk.1 hob
    (fun j hj => by
      have hlt : j < cells.length := by omega
      obtain ⟨y, hy⟩ := c2 _ (List.getElem_mem hlt)
      exact ⟨y, by rw [List.getElem?_eq_getElem hlt, hy]⟩)
  obtain ⟨m5, e5, i5, k5, l5⟩ := attach_tot (s := ⟨m4, s.stk ++ [.arr s.mem.length]⟩) i4 (v := .arr s.mem.length) (fun c hc => i4.stk_live (by simp [V.ptr] at hc; subst hc; exact hlast))
  obtain ⟨m6, e6, i6, k6⟩ := detach_tot (v := .arr s.mem.length) (own := s.mem.length :: own) (s := ⟨m5, s.stk⟩) (Inv.pop i5)
  obtain ⟨rc6, q6⟩ := (q1.kept k5 id (l5 _ q1.live)).kept k6 id (i6.own_live (by simp))
  have kk : Kept s.mem m4 := by
    have h12 := k1.trans k3
    refine ⟨h12.1.trans k4.1, fun b o' _ hb ho => ?_⟩
    obtain ⟨o2, f1, f2, f3, f4⟩ := k4.2 b o' (by show b ≠ _; omega) (Nat.lt_of_lt_of_le hb h12.1) ho
    obtain ⟨o1, f5, f6, f7, f8⟩ := h12.2 b o2 id hb f1
    exact ⟨o1, f5, f2.trans f6, f3.trans f7, f4.trans f8⟩
  refine ⟨⟨m6, s.stk⟩, _, ?_, rfl, q6, ⟨rfl, by simpa using h4, fun j y hj => ?_⟩, all_same ((kk.trans k5).trans k6)⟩
  · unfold applyNew
    refine (bind_eq (readSlot h1)).trans ?_
    have hh : heapOf (.arr a) s = .ok (some a) s := rfl
    refine (bind_eq hh).trans ?_
    simp only
    refine (bind_eq (obj_eq h2)).trans ?_
    refine (bind_eq e1).trans ?_
    refine (bind_eq (show (pure (V.arr s.mem.length) : M α (V α)) ⟨s.mem ++ [some ob], s.stk⟩ = .ok _ _ from rfl)).trans ?_
    refine withVar_run' (s := ⟨s.mem ++ [some ob], s.stk⟩) (stk1 := s.stk) (w := .arr s.mem.length) (mem1 := m5) ?_ rfl e6
    have ea : assign (.slot s.stk.length) (.arr s.mem.length) ⟨s.mem ++ [some ob], s.stk ++ [.nil]⟩ = .ok () ⟨m3, s.stk ++ [.arr s.mem.length]⟩ := by
      unfold assign
      exact (bind_eq (readTemp _ _ _)).trans e3
    refine (bind_eq ea).trans ?_
    refine (bind_eq e4).trans ?_
    refine (bind_eq (readTemp _ _ _)).trans ?_
    unfold copyV
    exact (bind_eq e5).trans rfl
  · rw [List.getElem?_map] at hj
    obtain ⟨x, hx, rfl⟩ := Option.map_eq_some_iff.1 hj
    exact q2 j x hx

/-! ## Cases -/

section

attribute [local instance] intEnv

/-- One more, for every type of number. -/
def inc : Fn Int := ⟨true, fun k x => (k, x + 1)⟩

theorem inc_applies {k : Kind} (x : Int) (h : k = .float ∨ k = .double ∨ k = .cfloat) : Applies inc k x := by
  rcases h with rfl | rfl | rfl <;> exact ⟨rfl, by simp [inc, Scalar, Number]⟩

/-- `{7: [[1, 2], 3.0]}` in variable 2. -/
def progF : List (Stmt Int) := [.decl (.num .float 1), .push 0 (.num .float 2), .decl .nil, .push 1 (.name 0), .push 1 (.num .double 3), .decl .nil,
  .setKey 2 (.num .int 7) (.name 1)]

/-- The data in variable 2. -/
def dataF : Nested Int := .map [.num .int 7] [.list [.nums .float [1, 2], .num .double 3]]

theorem progF_reach : Reach (final progF) := reach_exec progF .start (by decide +kernel)

theorem progF_tree : IsTree (final progF).mem (.arr 2) dataF [2, 1, 0] := by
  have t0 : IsTree (final progF).mem (.arr 0) (.nums .float [1, 2]) [0] :=
    .nums (o := ⟨.float, 2, 2, [.raw (some 1), .raw (some 2), .raw none, .raw none, .raw none, .raw none, .raw none, .raw none]⟩) (by decide +kernel) (by simp [Number])
      ⟨rfl, rfl, fun i y hy => by
        match i, hy with
        | 0, hy => cases hy; rfl
        | 1, hy => cases hy; rfl⟩
  have t1 : IsTree (final progF).mem (.arr 1) (.list [.nums .float [1, 2], .num .double 3]) (1 :: [[0], []].flatten) :=
    .list (o := ⟨.var, 2, 2, .var (.arr 0) :: .var (.num .double 3) :: List.replicate 6 (.var .nil)⟩) (vs := [.arr 0, .num .double 3]) (by decide +kernel) rfl rfl rfl rfl
      (fun i v hv => by
        match i, hv with
        | 0, hv => cases hv; rfl
        | 1, hv => cases hv; rfl)
      (fun i v t f hv ht hf => by
        match i, hv, ht, hf with
        | 0, hv, ht, hf => cases hv; cases ht; cases hf; exact t0
        | 1, hv, ht, hf => cases hv; cases ht; cases hf; exact .num (by simp [Scalar, Number]))
  exact .map (o := ⟨.pair, 1, 1, .pair (.num .int 7) (.arr 1) :: List.replicate 7 (.pair .nil .nil)⟩) (ks := [.num .int 7]) (vs := [.arr 1]) (fs := [[1, 0]])
    (by decide +kernel) rfl rfl rfl rfl rfl
    (fun i k v hk hv => by
      match i, hk, hv with
      | 0, hk, hv => cases hk; cases hv; rfl)
    (fun i v t f hv ht hf => by
      match i, hv, ht, hf with
      | 0, hv, ht, hf => cases hv; cases ht; cases hf; exact t1)

theorem progF_all : dataF.All (Applies inc) (· ≠ .cdouble) := by
  refine .map fun t ht => ?_
  rw [List.mem_singleton] at ht
  subst ht
  refine .list fun t ht => ?_
  simp only [List.mem_cons, List.not_mem_nil, or_false] at ht
  rcases ht with rfl | rfl
  · exact .nums (by decide) fun x _ => inc_applies x (.inl rfl)
  · exact .num (inc_applies 3 (.inr (.inl rfl)))

/-- Hypotheses of `in_place_partial`, and what it says here. -/
example : ∃ s' w, applyTo inc 4 2 2 (final progF) = .ok w s' ∧ IsTree s'.mem w (.map [.num .int 7] [.list [.nums .float [2, 3], .num .double 4]]) [2, 1, 0] := by
  obtain ⟨s', w, h1, -, h2, -⟩ := in_place_partial inc progF_reach (n := 2) (by decide +kernel) progF_tree (by decide) progF_all (d := 4)
    (by simp [dataF, Nested.depth])
  refine ⟨s', w, h1, ?_⟩
  have hd : dataF.mapNums inc.f Env.conv = .map [.num .int 7] [.list [.nums .float [2, 3], .num .double 4]] := by
    simp [dataF, Nested.mapNums, inc, Env.conv, intConv]
  rw [hd] at h2
  exact h2

/-- Hypotheses of `apply_to_array` and `apply_new_partial`: two arrays. -/
def progTo : List (Stmt Int) := [.decl (.num .float 1), .push 0 (.num .float 2), .decl (.num .int 5), .push 1 (.num .int 6), .push 1 (.num .int 7)]

theorem progTo_reach : Reach (final progTo) := reach_exec progTo .start (by decide +kernel)

theorem progTo_to : Contents (final progTo) 1 .int [5, 6, 7] :=
  contents_of (a := 1) (o := ⟨.int, 3, 1, [.raw (some 5), .raw (some 6), .raw (some 7), .raw none, .raw none, .raw none, .raw none, .raw none]⟩)
    [5, 6, 7] (by decide +kernel) (by decide +kernel) (by decide) rfl

theorem progTo_from : Contents (final progTo) 0 .float [1, 2] :=
  contents_of (a := 0) (o := ⟨.float, 2, 1, [.raw (some 1), .raw (some 2), .raw none, .raw none, .raw none, .raw none, .raw none, .raw none]⟩)
    [1, 2] (by decide +kernel) (by decide +kernel) (by decide) rfl

example : ∃ s', applyTo inc 2 0 1 (final progTo) = .ok (.arr 1) s' ∧ Contents s' 1 .int [2, 3, 7] := by
  obtain ⟨s', h1, -, h2, -⟩ := apply_to_array inc progTo_reach (a := 0) (b := 1) (by decide +kernel) (by decide +kernel) (by decide) progTo_from progTo_to
    (by simp [Scalar, Number]) (by simp [Number]) (by decide) (fun x _ => inc_applies x (.inl rfl)) (d := 2) (by decide)
  exact ⟨s', h1, h2⟩

example : ∃ s' o, applyNew inc 2 0 (final progTo) = .ok (.arr 2) s' ∧ s'.mem[2]? = some (some o) ∧ Elements o .float [2, 3] := by
  obtain ⟨s', o, h1, -, h2, h3, -⟩ := apply_new_partial inc progTo_reach progTo_from (by simp [Scalar, Number]) (by simp [Fits])
    (fun x _ => inc_applies x (.inl rfl)) (d := 2) (by decide)
  have hl : (final progTo).mem.length = 2 := by decide +kernel
  rw [hl] at h1 h2
  exact ⟨s', o, h1, h2, h3⟩

/-! ## What does not hold -/

/-- C65 in full, for functions that keep the type of numbers: arrays may occur at several places, and any type of number is allowed that the function takes. -/
def InPlace : Prop := ∀ (F : Fn Int) (s : State Int) (n : Nat) (v : V Int) (t : Nested Int) (fp : List Addr) (d : Nat), Reach s → s.stk[n]? = some v → IsTree s.mem v t fp →
  t.All (fun k x => F.takes k = true ∧ (F.f k x).1 = k) (fun _ => True) → t.depth ≤ d →
  ∃ s' w fp', applyTo F d n n s = .ok w s' ∧ s'.stk = s.stk.set n w ∧ IsTree s'.mem w (t.mapNums F.f Env.conv) fp' ∧ Beside s s' fp

/-- `[x, x]` for `x = [1, 2]`. -/
def progS : List (Stmt Int) := [.decl (.num .float 1), .push 0 (.num .float 2), .decl .nil, .push 1 (.name 0), .push 1 (.name 0)]

theorem progS_tree : IsTree (final progS).mem (.arr 1) (.list [.nums .float [1, 2], .nums .float [1, 2]]) (1 :: [[0], [0]].flatten) := by
  have t0 : IsTree (final progS).mem (.arr 0) (.nums .float [1, 2]) [0] :=
    .nums (o := ⟨.float, 2, 3, [.raw (some 1), .raw (some 2), .raw none, .raw none, .raw none, .raw none, .raw none, .raw none]⟩) (by decide +kernel) (by simp [Number])
      ⟨rfl, rfl, fun i y hy => by
        match i, hy with
        | 0, hy => cases hy; rfl
        | 1, hy => cases hy; rfl⟩
  exact .list (o := ⟨.var, 2, 1, .var (.arr 0) :: .var (.arr 0) :: List.replicate 6 (.var .nil)⟩) (vs := [.arr 0, .arr 0]) (by decide +kernel) rfl rfl rfl rfl
    (fun i v hv => by
      match i, hv with
      | 0, hv => cases hv; rfl
      | 1, hv => cases hv; rfl)
    (fun i v t f hv ht hf => by
      match i, hv, ht, hf with
      | 0, hv, ht, hf => cases hv; cases ht; cases hf; exact t0
      | 1, hv, ht, hf => cases hv; cases ht; cases hf; exact t0)

/-- It does not hold: the numbers of an array that occurs twice are changed twice. -/
theorem shared_twice : ¬ InPlace ∧ ∃ s', applyTo inc 4 1 1 (final progS) = .ok (.arr 1) s' ∧ s'.stk = [.arr 0, .arr 1] ∧ Contents s' 0 .float [3, 4] := by
  have h1 : applyTo inc 4 1 1 (final progS) = .ok (.arr 1) (match applyTo inc 4 1 1 (final progS) with | .ok _ s => s | _ => ⟨[], []⟩) := by decide +kernel
  refine ⟨fun h => ?_, _, h1, by decide +kernel, contents_of (a := 0)
    (o := ⟨.float, 2, 3, [.raw (some 3), .raw (some 4), .raw none, .raw none, .raw none, .raw none, .raw none, .raw none]⟩) [3, 4]
    (by decide +kernel) (by decide +kernel) (by decide) rfl⟩
  obtain ⟨s', w, fp', h2, -, h4, -⟩ := h inc (final progS) 1 _ _ _ 4 (reach_exec progS .start (by decide +kernel)) (by decide +kernel) progS_tree
    (.list fun t ht => by
      simp only [List.mem_cons, List.not_mem_nil, or_false, or_self] at ht
      subst ht
      exact .nums trivial fun x _ => ⟨rfl, rfl⟩)
    (by simp [Nested.depth])
  rw [h1] at h2
  cases h2
  rw [mapNums_list] at h4
  have h5 : (match applyTo inc 4 1 1 (final progS) with | .ok _ s => s | _ => ⟨[], []⟩ : State Int).mem =
      [some ⟨.float, 2, 3, [.raw (some 3), .raw (some 4), .raw none, .raw none, .raw none, .raw none, .raw none, .raw none]⟩,
        some ⟨.var, 2, 2, .var (.arr 0) :: .var (.arr 0) :: List.replicate 6 (.var .nil)⟩] := by decide +kernel
  rw [h5] at h4
  cases h4 with
  | @list a o vs ts fs e1 e2 e3 e4 e5 e6 e7 =>
    cases e1
    have hv : vs.length = 2 := e4
    have hf : fs.length = 2 := e5
    have e8 := e7 0 _ _ _ (List.getElem?_eq_getElem (by omega)) rfl (List.getElem?_eq_getElem (by omega))
    have e9 := e6 0 _ (List.getElem?_eq_getElem (by omega))
    simp only [List.getElem?_cons_zero, Option.some.injEq, Cell.var.injEq] at e9
    rw [← e9, Nested.mapNums] at e8
    generalize fs[0]'(by omega) = f at e8
    cases e8 with
    | nums g1 g2 g3 =>
      cases g1
      cases g3.2.2 0 _ rfl

/-- `[1, 2]`, of `cdouble`. -/
def progC : List (Stmt Int) := [.decl (.num .cdouble 1), .push 0 (.num .cdouble 2)]

theorem progC_contents : Contents (final progC) 0 .cdouble [1, 2] :=
  contents_of (a := 0) (o := ⟨.cdouble, 2, 1, [.raw (some 1), .raw (some 2), .raw none, .raw none, .raw none, .raw none, .raw none, .raw none]⟩)
    [1, 2] (by decide +kernel) (by decide +kernel) (by decide) rfl

/-- Of an array of `cdouble` only the first element is used: the variable becomes a new array with one element. -/
theorem cdouble_lost : ¬ InPlace ∧ ∃ s', applyTo inc 4 0 0 (final progC) = .ok (.arr 2) s' ∧ Contents s' 0 .cdouble [2] := by
  have h1 : applyTo inc 4 0 0 (final progC) = .ok (.arr 2) (match applyTo inc 4 0 0 (final progC) with | .ok _ s => s | _ => ⟨[], []⟩) := by decide +kernel
  refine ⟨fun h => ?_, _, h1, contents_of (a := 2)
    (o := ⟨.cdouble, 1, 2, [.raw (some 2), .raw none, .raw none, .raw none, .raw none, .raw none, .raw none, .raw none]⟩) [2]
    (by decide +kernel) (by decide +kernel) (by decide) rfl⟩
  obtain ⟨a, o, c1, c2, c3⟩ := progC_contents
  obtain ⟨s', w, fp', h2, -, h4, -⟩ := h inc (final progC) 0 _ _ _ 4 (reach_exec progC .start (by decide +kernel)) c1 (.nums c2 (by simp [Number]) c3)
    (.nums trivial fun x _ => ⟨rfl, rfl⟩) (by simp [Nested.depth])
  rw [h1] at h2
  cases h2
  rw [Nested.mapNums] at h4
  cases h4 with
  | @nums a o k xs g1 g2 g3 =>
    have h5 : (match applyTo inc 4 0 0 (final progC) with | .ok _ s => s | _ => ⟨[], []⟩ : State Int).mem[2]? =
      some (some ⟨.cdouble, 1, 2, [.raw (some 2), .raw none, .raw none, .raw none, .raw none, .raw none, .raw none, .raw none]⟩) := by decide +kernel
    rw [h5] at g1
    cases g1
    cases g3.2.1

/-- C97 in full: `f(x)` for any data `x`. -/
def ApplyNew : Prop := ∀ (F : Fn Int) (s : State Int) (n : Nat) (v : V Int) (t : Nested Int) (fp : List Addr) (d : Nat), Reach s → s.stk[n]? = some v → IsTree s.mem v t fp →
  t.All (Applies F) (· ≠ .cdouble) → t.depth ≤ d →
  ∃ s' w fp', applyNew F d n s = .ok w s' ∧ s'.stk = s.stk ∧ IsTree s'.mem w (t.mapNums F.f Env.conv) fp' ∧ AllSame s s'

/-- It does not hold: `f(x)` throws if `x` contains an array. -/
theorem new_nested_throws : ¬ ApplyNew ∧ ∃ s', applyNew inc 4 2 (final progF) = .thrown (.error "var::at(): uninitialised") s' := by
  have h1 : applyNew inc 4 2 (final progF) = .thrown (.error "var::at(): uninitialised") (match applyNew inc 4 2 (final progF) with | .thrown _ s => s | _ => ⟨[], []⟩) := by
    decide +kernel
  refine ⟨fun h => ?_, _, h1⟩
  obtain ⟨s', w, fp', h2, -⟩ := h inc (final progF) 2 _ _ _ 4 progF_reach (by decide +kernel) progF_tree progF_all (by simp [dataF, Nested.depth])
  rw [h1] at h2
  cases h2

end

#print axioms shared_twice
#print axioms cdouble_lost
#print axioms new_nested_throws
#print axioms in_place_partial
#print axioms apply_to_array
#print axioms apply_new_partial

end Libube.MemProps

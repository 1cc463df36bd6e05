import Verif.Lemmas.Life
import Verif.Lemmas.MemProg

/-! # The life of arrays and views (C143, C144) -/

namespace Libube.LifeProps

open Life LifeInv

/-- The array or view `a` has been allocated and not freed. -/
def Allocated (s : State) (a : Nat) : Prop := ∃ o, s.objs[a]? = some (some o)

/-- `b` is a view of `a`, or an array of vars one of which holds `a`. -/
def Points (s : State) (b a : Nat) : Prop := ∃ o, s.objs[b]? = some (some o) ∧ (o.body = .view a ∨ ∃ es, o.body = .vars es ∧ some a ∈ es)

/-- A variable holds `a`. -/
def Holds (s : State) (x a : Nat) : Prop := s.vars[x]? = some (some a)

/-- Something refers to `a`. -/
def Referred (s : State) (a : Nat) : Prop := (∃ x, Holds s x a) ∨ ∃ b, Points s b a

/-- `a` is an array of vars `es`, or a view of one. -/
def IsVars (s : State) (a : Nat) (es : List (Option Nat)) : Prop :=
  ∃ o, s.objs[a]? = some (some o) ∧ (o.body = .vars es ∨ ∃ t o', o.body = .view t ∧ s.objs[t]? = some (some o') ∧ o'.body = .vars es)

/-- `a` is an array of numbers or a view of one. -/
def IsNums (s : State) (a : Nat) : Prop :=
  ∃ o, s.objs[a]? = some (some o) ∧ (o.body = .nums ∨ ∃ t o', o.body = .view t ∧ s.objs[t]? = some (some o') ∧ o'.body = .nums)

/-- The variables of a statement exist, and elements are those of arrays and in range. -/
def Proper (s : State) : Op → Prop
  | .decl => True
  | .leave => True
  | .nums x _ => x < s.vars.length
  | .array x _ _ => x < s.vars.length
  | .assign x y _ => x < s.vars.length ∧ y < s.vars.length
  | .clear x => x < s.vars.length
  | .view x y _ _ => x < s.vars.length ∧ y < s.vars.length
  | .copy x y _ _ => x < s.vars.length ∧ y < s.vars.length
  | .put x i y _ => y < s.vars.length ∧ ∃ a es, Holds s x a ∧ IsVars s a es ∧ i < es.length
  | .get x y i _ _ => x < s.vars.length ∧ ∃ a, Holds s y a ∧ ((∃ es, IsVars s a es ∧ i < es.length) ∨ IsNums s a)

/-- The states that proper programs get to. -/
inductive Reach : State → Prop
  | start : Reach start
  | step {s s' : State} (o : Op) : Reach s → Proper s o → step o s = .ok s' → Reach s'

theorem IsVars.elem {s : State} {a : Nat} {es : List (Option Nat)} (h : IsVars s a es) : ∃ t, Elem s.objs a t es := by
  obtain ⟨o, ho, h | ⟨t, o', h1, h2, h3⟩⟩ := h
  · exact ⟨a, o, ho, .inl ⟨rfl, h⟩⟩
  · exact ⟨t, o, ho, .inr ⟨h1, o', h2, h3⟩⟩

theorem IsNums.numbers {s : State} {a : Nat} (h : IsNums s a) : ∃ t, Numbers s.objs a t := by
  obtain ⟨o, ho, h | ⟨t, o', h1, h2, h3⟩⟩ := h
  · exact ⟨a, o, ho, .inl ⟨rfl, h⟩⟩
  · exact ⟨t, o, ho, .inr ⟨h1, o', h2, fun es => by rw [h3]; exact nofun⟩⟩

/-- The shape fits, the type can be copied: no exception in a constructor. -/
def Op.clean : Op → Bool
  | .view _ _ fits _ => fits
  | .copy _ _ known _ => known
  | _ => true

theorem step_ok {s : State} (h : Good s []) (o : Op) (hp : Proper s o) : ∃ s', step o s = .ok s' ∧ Good s' [] ∧ (Op.clean o = true → s'.lost = s.lost) := by
  cases o with
  | decl =>
    refine ⟨_, rfl, ?_, fun _ => rfl⟩
    refine Inv.perm h fun a => ?_
    simp [ptrs]
  | leave =>
    simp only [step]
    rcases List.eq_nil_or_concat s.vars with hv | ⟨vs, v, hv⟩
    · rw [hv]
      exact ⟨s, rfl, h, fun _ => rfl⟩
    · rw [hv]
      simp only [List.concat_eq_append, List.getLast?_append, List.getLast?_singleton, Option.some_or, List.dropLast_concat]
      obtain ⟨m', e, i, -⟩ := detachV_ok (m := s.objs) (p := v) (R := ptrs vs ++ []) (Inv.perm h fun a => by
        rw [hv]; simp only [ptrs, List.concat_eq_append, List.flatMap_append, List.flatMap_cons, List.flatMap_nil, List.append_nil, List.count_append]; omega)
      rw [e]
      exact ⟨_, rfl, i, fun _ => rfl⟩
  | nums x c =>
    obtain ⟨s', e, g, -, k⟩ := newVar_ok h hp (b := .nums) rfl c
    exact ⟨s', e, g, fun _ => k⟩
  | array x n c =>
    have hk : (Body.vars (List.replicate n none)).kids = [] := by
      simp only [Body.kids, List.reverse_eq_nil_iff, List.flatMap_eq_nil_iff]
      intro p hp
      rw [List.eq_of_mem_replicate hp]
      rfl
    obtain ⟨s', e, g, -, k⟩ := newVar_ok h hp hk c
    exact ⟨s', e, g, fun _ => k⟩
  | assign x y c =>
    obtain ⟨hx, hy⟩ := hp
    obtain ⟨m1, e1, i1, -, -⟩ := attachV_ok (p := s.vars[y]) h (fun b hb => .inl (by
      have := mem_ptrs (vs := s.vars) (x := y) (a := b) (by rw [List.getElem?_eq_getElem hy, hb])
      simp [this]))
    obtain ⟨s', e, g, -, k, -⟩ := assign_ok (s := { s with objs := m1 }) (T := []) (sl := .var x) (p := s.vars[y]) c hx
      (i1.perm fun a => by simp only [List.count_append, List.count_nil]; omega)
    refine ⟨s', ?_, g, fun _ => k⟩
    simp only [step, var_ok hy, e1, e, Outcome.bind_ok]
  | clear x =>
    obtain ⟨s', e, g, -, k, -⟩ := assign_ok (s := s) (T := []) (sl := .var x) (p := none) false hp h
    exact ⟨s', e, g, fun _ => k⟩
  | view x y f c =>
    obtain ⟨s', e, g, -, k⟩ := view_ok h hp.1 hp.2 f c
    exact ⟨s', e, g, k⟩
  | copy x y k c =>
    obtain ⟨s', e, g, -, k⟩ := copy_ok h hp.1 hp.2 k c
    exact ⟨s', e, g, k⟩
  | put x i y c =>
    obtain ⟨hy, a, es, ha, he, hi⟩ := hp
    obtain ⟨t, he⟩ := he.elem
    obtain ⟨s', e, g, -, k⟩ := put_ok h ha he hi hy c
    exact ⟨s', e, g, fun _ => k⟩
  | get x y i c d =>
    obtain ⟨hx, a, ha, hr⟩ := hp
    have hr : Reads s.objs a i := by
      rcases hr with ⟨es, h, hi⟩ | h
      · obtain ⟨t, ht⟩ := h.elem
        exact .inl ⟨t, es, ht, hi⟩
      · exact .inr h.numbers
    obtain ⟨s', e, g, -, k, -⟩ := get_ok h hx ha hr c d
    exact ⟨s', e, g, fun _ => k⟩

theorem start_good : Good start [] := ⟨fun a => by simp [rcOf, start, cells, ptrs], fun a o h => by simp [start] at h⟩

theorem reach_good {s : State} (h : Reach s) : Good s [] := by
  induction h with
  | start => exact start_good
  | step o _ hp he ih =>
    obtain ⟨s'', e, g, -⟩ := step_ok ih o hp
    cases e.symm.trans he
    exact g

/-- C143, safety: no proper statement of any program uses memory that has been freed, frees it twice, fails an assertion or does not end. -/
theorem life_safe {s : State} (h : Reach s) (o : Op) (hp : Proper s o) : ∃ s', step o s = .ok s' := by
  obtain ⟨s', e, -⟩ := step_ok (reach_good h) o hp
  exact ⟨s', e⟩

theorem points_iff (s : State) (a : Nat) : (∃ b, Points s b a) ↔ a ∈ cells s.objs := by
  unfold cells Points
  rw [List.mem_flatMap]
  constructor
  · rintro ⟨b, o, ho, h⟩
    refine ⟨some o, List.mem_of_getElem? ho, ?_⟩
    rcases h with h | ⟨es, h, he⟩
    · simp only [kidsOf, h]; exact List.mem_singleton.2 rfl
    · simp only [kidsOf, h, Body.kids, List.mem_reverse, List.mem_flatMap]
      exact ⟨some a, he, by simp⟩
  · rintro ⟨e, he, ha⟩
    obtain ⟨b, hb⟩ := List.mem_iff_getElem?.1 he
    cases e with
    | none => cases ha
    | some o =>
      refine ⟨b, o, hb, ?_⟩
      simp only [kidsOf] at ha
      cases ho : o.body with
      | nums => rw [ho] at ha; cases ha
      | vars es =>
        rw [ho] at ha
        simp only [Body.kids, List.mem_reverse, List.mem_flatMap, Option.mem_toList] at ha
        obtain ⟨p, hp, hpa⟩ := ha
        cases hpa
        exact .inr ⟨es, rfl, hp⟩
      | view t =>
        rw [ho] at ha
        simp only [Body.kids, List.mem_singleton] at ha
        exact .inl (by rw [ha])

theorem holds_iff (s : State) (a : Nat) : (∃ x, Holds s x a) ↔ a ∈ ptrs s.vars := by
  constructor
  · rintro ⟨x, h⟩
    exact mem_ptrs h
  · intro h
    unfold ptrs at h
    rw [List.mem_flatMap] at h
    obtain ⟨p, hp, ha⟩ := h
    obtain ⟨x, hx⟩ := List.mem_iff_getElem?.1 hp
    simp only [Option.mem_toList] at ha
    cases ha
    exact ⟨x, hx⟩

/-- C143: at every moment of every program an array or view is allocated if and only if a variable, an element of an array or a view refers to it. -/
theorem life_exact {s : State} (h : Reach s) (a : Nat) : Allocated s a ↔ Referred s a := by
  have g : Inv s.objs (ptrs s.vars ++ []) := reach_good h
  unfold Referred
  rw [holds_iff, points_iff]
  constructor
  · rintro ⟨o, ho⟩
    rcases g.held ho with h | h
    · exact .inl (by simpa using h)
    · exact .inr h
  · intro h
    exact g.alive (h.imp (fun h => by simpa using h) id)

/-- On a cycle of references. -/
def OnCycle (s : State) (a : Nat) : Prop := Relation.TransGen (Points s) a a

/-- C143, at the end: when all variables are gone, only what hangs on a cycle is left.  Missing: blocks lost by exceptions in constructors (`refused_lost`) and cycles
    (`cycle_left`). -/
theorem life_end_partial {s : State} (h : Reach s) (hs : s.vars = []) (a : Nat) (ha : Allocated s a) : ∃ c, OnCycle s c ∧ Relation.ReflTransGen (Points s) c a := by
  refine Mem.cycle_of_pred (P := Allocated s) (N := s.objs.length) ?_ ?_ a ha
  · rintro b ⟨o, ho⟩
    exact (List.getElem?_eq_some_iff.1 ho).1
  · intro b hb
    rcases (life_exact h b).1 hb with ⟨x, hx⟩ | ⟨c, hc⟩
    · unfold Holds at hx
      rw [hs] at hx
      simp at hx
    · have hc' := hc
      obtain ⟨o, ho, -⟩ := hc'
      exact ⟨c, ⟨o, ho⟩, hc⟩

/-- In particular nothing is left if there are no cycles. -/
theorem life_end_acyclic_partial {s : State} (h : Reach s) (hs : s.vars = []) (hc : ∀ c, ¬ OnCycle s c) (a : Nat) : ¬ Allocated s a := fun ha => by
  obtain ⟨c, h1, -⟩ := life_end_partial h hs a ha
  exact hc c h1

/-- The states that programs get to without exceptions in constructors. -/
inductive ReachClean : State → Prop
  | start : ReachClean start
  | step {s s' : State} (o : Op) : ReachClean s → Proper s o → Op.clean o = true → step o s = .ok s' → ReachClean s'

theorem ReachClean.reach {s : State} (h : ReachClean s) : Reach s := by
  induction h with
  | start => exact .start
  | step o _ hp _ he ih => exact .step o ih hp he

/-- C143: no block of memory is lost if no shape is refused and no array of complex numbers is copied.  Missing: those. -/
theorem life_lost_partial {s : State} (h : ReachClean s) : s.lost = 0 := by
  induction h with
  | start => rfl
  | step o h hp hc he ih =>
    obtain ⟨s'', e, -, k⟩ := step_ok (reach_good h.reach) o hp
    cases e.symm.trans he
    rw [k hc, ih]

/-- `{ var x; x = "abc"; var y; y = x.view({2}); x = nil; var z; z.resize(1); z[0] = y; y = nil; x = z[0]; }` -/
def prog : List Op := [.decl, .nums 0 false, .decl, .view 1 0 true false, .clear 0, .decl, .array 2 1 false, .put 2 0 1 false, .clear 1, .get 0 2 0 false false, .leave, .leave, .leave]

-- the string lives on in the view in the array, and at the end all is freed
example : run (prog.take 9) start = .ok ⟨[none, none, some 2], [some ⟨1, .nums⟩, some ⟨1, .view 0⟩, some ⟨1, .vars [some 1]⟩], 0⟩ ∧
    run prog start = .ok ⟨[], [none, none, none], 0⟩ := ⟨rfl, rfl⟩

theorem reach_step {s s' : State} (h : ReachClean s) (o : Op) (hp : Proper s o) (hc : Op.clean o = true) (e : step o s = .ok s') : ReachClean s' := .step o h hp hc e

theorem prog_reach : ReachClean ⟨[none, none, some 2], [some ⟨1, .nums⟩, some ⟨1, .view 0⟩, some ⟨1, .vars [some 1]⟩], 0⟩ := by
  have h1 : ReachClean ⟨[none], [], 0⟩ := .step .decl .start trivial rfl rfl
  have h2 : ReachClean ⟨[some 0], [some ⟨1, .nums⟩], 0⟩ := .step (.nums 0 false) h1 (by simp [Proper]) rfl rfl
  have h3 : ReachClean ⟨[some 0, none], [some ⟨1, .nums⟩], 0⟩ := .step .decl h2 trivial rfl rfl
  have h4 : ReachClean ⟨[some 0, some 1], [some ⟨2, .nums⟩, some ⟨1, .view 0⟩], 0⟩ := .step (.view 1 0 true false) h3 (by simp [Proper]) rfl rfl
  have h5 : ReachClean ⟨[none, some 1], [some ⟨1, .nums⟩, some ⟨1, .view 0⟩], 0⟩ := .step (.clear 0) h4 (by simp [Proper]) rfl rfl
  have h6 : ReachClean ⟨[none, some 1, none], [some ⟨1, .nums⟩, some ⟨1, .view 0⟩], 0⟩ := .step .decl h5 trivial rfl rfl
  have h7 : ReachClean ⟨[none, some 1, some 2], [some ⟨1, .nums⟩, some ⟨1, .view 0⟩, some ⟨1, .vars [none]⟩], 0⟩ := .step (.array 2 1 false) h6 (by simp [Proper]) rfl rfl
  have h8 : ReachClean ⟨[none, some 1, some 2], [some ⟨1, .nums⟩, some ⟨2, .view 0⟩, some ⟨1, .vars [some 1]⟩], 0⟩ :=
    .step (.put 2 0 1 false) h7 ⟨by simp, 2, [none], rfl, ⟨_, rfl, .inl rfl⟩, by simp⟩ rfl rfl
  exact .step (.clear 1) h8 (by simp [Proper]) rfl rfl

-- the string is referred to by the view only
example : Allocated ⟨[none, none, some 2], [some ⟨1, .nums⟩, some ⟨1, .view 0⟩, some ⟨1, .vars [some 1]⟩], 0⟩ 0 ∧
    Points ⟨[none, none, some 2], [some ⟨1, .nums⟩, some ⟨1, .view 0⟩, some ⟨1, .vars [some 1]⟩], 0⟩ 1 0 := ⟨⟨_, rfl⟩, _, rfl, .inl rfl⟩

-- and can be got at
example : Proper ⟨[none, none, some 2], [some ⟨1, .nums⟩, some ⟨1, .view 0⟩, some ⟨1, .vars [some 1]⟩], 0⟩ (.get 0 2 0 false false) :=
  ⟨by simp, 2, rfl, .inl ⟨[some 1], ⟨_, rfl, .inl rfl⟩, by simp⟩⟩

/-- "Nothing is left when all variables are gone." -/
def NothingLeft : Prop := ∀ s, Reach s → s.vars = [] → s.lost = 0 ∧ ∀ a, ¬ Allocated s a

/-- A shape that is refused loses the block of memory for it: `{ var x = "abc"; try { x.view({4}); } catch (...) {} }`. -/
theorem refused_lost : ¬ NothingLeft := by
  intro h
  have h1 : Reach ⟨[none], [], 0⟩ := .step .decl .start trivial rfl
  have h2 : Reach ⟨[some 0], [some ⟨1, .nums⟩], 0⟩ := .step (.nums 0 false) h1 (by simp [Proper]) rfl
  have h3 : Reach ⟨[some 0], [some ⟨1, .nums⟩], 1⟩ := .step (.view 0 0 false false) h2 (by simp [Proper]) rfl
  have h4 : Reach ⟨[], [none], 1⟩ := .step .leave h3 trivial rfl
  exact absurd (h _ h4 rfl).1 (by simp)

/-- An array one of whose elements is a view of it is never freed: `{ var x; x.resize(1); x[0] = x.view({1}); }`. -/
theorem cycle_left : ∃ s, ReachClean s ∧ s.vars = [] ∧ Allocated s 0 ∧ Allocated s 1 := by
  have h1 : ReachClean ⟨[none], [], 0⟩ := .step .decl .start trivial rfl rfl
  have h2 : ReachClean ⟨[some 0], [some ⟨1, .vars [none]⟩], 0⟩ := .step (.array 0 1 false) h1 (by simp [Proper]) rfl rfl
  have h3 : ReachClean ⟨[some 0, none], [some ⟨1, .vars [none]⟩], 0⟩ := .step .decl h2 trivial rfl rfl
  have h4 : ReachClean ⟨[some 0, some 1], [some ⟨2, .vars [none]⟩, some ⟨1, .view 0⟩], 0⟩ := .step (.view 1 0 true false) h3 (by simp [Proper]) rfl rfl
  have h5 : ReachClean ⟨[some 0, some 1], [some ⟨2, .vars [some 1]⟩, some ⟨2, .view 0⟩], 0⟩ :=
    .step (.put 0 0 1 false) h4 ⟨by simp, 0, [none], rfl, ⟨_, rfl, .inl rfl⟩, by simp⟩ rfl rfl
  have h6 : ReachClean ⟨[some 0], [some ⟨2, .vars [some 1]⟩, some ⟨1, .view 0⟩], 0⟩ := .step .leave h5 trivial rfl rfl
  have h7 : ReachClean ⟨[], [some ⟨1, .vars [some 1]⟩, some ⟨1, .view 0⟩], 0⟩ := .step .leave h6 trivial rfl rfl
  exact ⟨_, h7, rfl, ⟨_, rfl⟩, _, rfl⟩

/-- Of what is there only vars have changed. -/
def Kept (m m' : Objs) : Prop := ∀ (b : Nat) (o' : Obj), m'[b]? = some (some o') →
  ∃ o, m[b]? = some (some o) ∧ (o'.body = o.body ∨ ∃ es es', o.body = .vars es ∧ o'.body = .vars es')

theorem Kept.refl (m : Objs) : Kept m m := fun _ o h => ⟨o, h, .inl rfl⟩

theorem Kept.trans {m m' m'' : Objs} (h : Kept m m') (h' : Kept m' m'') : Kept m m'' := fun b o'' ho => by
  obtain ⟨o', h1, e1⟩ := h' b o'' ho
  obtain ⟨o, h2, e2⟩ := h b o' h1
  refine ⟨o, h2, ?_⟩
  rcases e1 with e1 | ⟨es, es', e1, e1'⟩
  · rw [e1]; exact e2
  · rcases e2 with e2 | ⟨fs, fs', e2, e2'⟩
    · exact .inr ⟨es, es', e2.symm.trans e1, e1'⟩
    · exact .inr ⟨fs, es', e2, e1'⟩

theorem kept_set {m : Objs} {a : Nat} {o o' : Obj} (h : m[a]? = some (some o)) (hb : o'.body = o.body ∨ ∃ es es', o.body = .vars es ∧ o'.body = .vars es') :
    Kept m (m.set a (some o')) := fun b ob hob => by
  by_cases hba : b = a
  · subst hba
    rw [List.getElem?_set_self (List.getElem?_eq_some_iff.1 h).1] at hob
    cases hob
    exact ⟨o, h, hb⟩
  · rw [List.getElem?_set_ne (Ne.symm hba)] at hob
    exact ⟨ob, hob, .inl rfl⟩

theorem kept_free (m : Objs) (a : Nat) : Kept m (m.set a none) := fun b ob hob => by
  by_cases hba : b = a
  · subst hba
    by_cases hl : b < m.length
    · rw [List.getElem?_set_self hl] at hob
      cases hob
    · rw [List.getElem?_eq_none (by simpa using hl)] at hob
      cases hob
  · rw [List.getElem?_set_ne (Ne.symm hba)] at hob
    exact ⟨ob, hob, .inl rfl⟩

theorem attach_kept {a : Nat} {m m' : Objs} (h : attach a m = .ok m') : Kept m m' := by
  obtain ⟨o, ho, h⟩ := bind_ok_inv h
  cases h
  exact kept_set (look_inv ho) (.inl rfl)

theorem release_kept : ∀ (n : Nat) (w : List Nat) {m m' : Objs}, release n w m = .ok m' → Kept m m'
  | 0, _, _, _, h => by cases h
  | _ + 1, [], m, _, h => by cases h; exact .refl m
  | n + 1, a :: w, m, m', h => by
    obtain ⟨o, ho, h⟩ := bind_ok_inv h
    split at h
    · cases h
    · split at h
      · exact (kept_free m a).trans (release_kept n _ h)
      · exact Kept.trans (kept_set (o' := { o with rc := o.rc - 1 }) (look_inv ho) (.inl rfl)) (release_kept n _ h)

theorem attachV_kept {p : Option Nat} {m m' : Objs} (h : attachV p m = .ok m') : Kept m m' := by
  cases p with
  | none => cases h; exact .refl m
  | some a => exact attach_kept h

theorem detachV_kept {p : Option Nat} {m m' : Objs} (h : detachV p m = .ok m') : Kept m m' := by
  cases p with
  | none => cases h; exact .refl m
  | some a => exact release_kept _ _ h

theorem write_kept {s s' : State} {p : Option Nat} {sl : Slot} (h : write s p sl = .ok s') : Kept s.objs s'.objs := by
  cases sl with
  | var x => cases h; exact .refl _
  | elem a i =>
    obtain ⟨o, ho, h⟩ := bind_ok_inv h
    cases hb : o.body with
    | vars es =>
      rw [hb] at h
      cases h
      exact kept_set (look_inv ho) (.inr ⟨es, _, hb, rfl⟩)
    | nums => rw [hb] at h; cases h
    | view t => rw [hb] at h; cases h

theorem assign_kept {s s' : State} {sl : Slot} {p : Option Nat} {c : Bool} (h : assign sl p c s = .ok s') : Kept s.objs s'.objs := by
  obtain ⟨old, -, h⟩ := bind_ok_inv h
  obtain ⟨b, -, h⟩ := bind_ok_inv h
  cases b with
  | true =>
    obtain ⟨m, e, h⟩ := bind_ok_inv h
    cases h
    exact detachV_kept e
  | false =>
    obtain ⟨s1, e1, h⟩ := bind_ok_inv h
    obtain ⟨m1, e2, h⟩ := bind_ok_inv h
    obtain ⟨m2, e3, h⟩ := bind_ok_inv h
    obtain ⟨q, -, h⟩ := bind_ok_inv h
    obtain ⟨m3, e4, h⟩ := bind_ok_inv h
    cases h
    exact (((write_kept e1).trans (attachV_kept e2)).trans (detachV_kept e3)).trans (detachV_kept e4)

/-- Views are views of arrays, not of views. -/
def Flat (m : Objs) : Prop := ∀ (a : Nat) (o : Obj) (t : Nat), m[a]? = some (some o) → o.body = .view t → ∃ o', m[t]? = some (some o') ∧ ∀ u, o'.body ≠ .view u

theorem flat_kept {m m' : Objs} {R : List Nat} (h : Flat m) (k : Kept m m') (hi : Inv m' R) : Flat m' := by
  intro a o' t ho' hb
  obtain ⟨o, ho, e⟩ := k a o' ho'
  have hb0 : o.body = .view t := by
    rcases e with e | ⟨es, es', e, e'⟩
    · rw [← e]; exact hb
    · rw [hb] at e'; cases e'
  obtain ⟨ot, hot, hn⟩ := h a o t ho hb0
  obtain ⟨ot', hot'⟩ := hi.alive (a := t) (.inr (mem_cells ho' (by rw [hb]; exact List.mem_singleton.2 rfl)))
  refine ⟨ot', hot', fun u hu => ?_⟩
  obtain ⟨o2, ho2, e2⟩ := k t ot' hot'
  cases hot.symm.trans ho2
  rcases e2 with e2 | ⟨es, es', e2, e2'⟩
  · exact hn u (e2.symm.trans hu)
  · rw [hu] at e2'; cases e2'

theorem flat_alloc {m : Objs} {b : Body} (h : Flat m) (hb : ∀ t, b = .view t → ∃ o', m[t]? = some (some o') ∧ ∀ u, o'.body ≠ .view u) : Flat (alloc b m).2 := by
  intro a o t ho hv
  have key : ∃ o', m[t]? = some (some o') ∧ ∀ u, o'.body ≠ .view u := by
    simp only [alloc] at ho
    rcases Nat.lt_or_ge a m.length with hlt | hge
    · rw [List.getElem?_append_left hlt] at ho
      exact h a o t ho hv
    · rw [List.getElem?_append_right hge] at ho
      have : a - m.length = 0 := by
        have := (List.getElem?_eq_some_iff.1 ho).1
        simp at this
        omega
      rw [this] at ho
      cases ho
      exact hb t hv
  obtain ⟨o', ho', hn⟩ := key
  refine ⟨o', ?_, hn⟩
  simp only [alloc]
  rw [List.getElem?_append_left (List.getElem?_eq_some_iff.1 ho').1]
  exact ho'

theorem attachAll_kept : ∀ (as : List Nat) {m m' : Objs}, attachAll as m = .ok m' → Kept m m'
  | [], m, _, h => by cases h; exact .refl m
  | a :: as, m, m', h => by
    obtain ⟨m1, e, h⟩ := bind_ok_inv h
    exact (attach_kept e).trans (attachAll_kept as h)

theorem alive_of {m : Objs} {a : Nat} {o : Obj} (h : m[a]? = some (some o)) : a < m.length := (List.getElem?_eq_some_iff.1 h).1

theorem flat_step {s s' : State} (h : Good s []) (hf : Flat s.objs) (o : Op) (hp : Proper s o) (e : step o s = .ok s') : Flat s'.objs := by
  have hg : Inv s'.objs (ptrs s'.vars ++ []) := by
    obtain ⟨s'', e', g, -⟩ := step_ok h o hp
    cases e'.symm.trans e
    exact g
  cases o with
  | decl => cases e; exact hf
  | leave =>
    simp only [step] at e
    split at e
    · cases e; exact hf
    · obtain ⟨m, e1, e⟩ := bind_ok_inv e
      cases e
      exact flat_kept hf (detachV_kept e1) hg
  | nums x c => exact flat_kept (flat_alloc hf (by simp)) (assign_kept e) hg
  | array x n c => exact flat_kept (flat_alloc hf (by simp)) (assign_kept e) hg
  | assign x y c =>
    obtain ⟨p, -, e⟩ := bind_ok_inv e
    obtain ⟨m, e1, e⟩ := bind_ok_inv e
    exact flat_kept hf ((attachV_kept e1).trans (assign_kept e)) hg
  | clear x => exact flat_kept hf (assign_kept e) hg
  | view x y f c =>
    obtain ⟨hx, hy⟩ := hp
    simp only [step] at e
    unfold view at e
    rw [var_ok hy] at e
    simp only [Outcome.bind_ok] at e
    cases hv : s.vars[y] with
    | none => rw [hv] at e; cases e; exact hf
    | some a =>
      rw [hv] at e
      have hy' : s.vars[y]? = some (some a) := by rw [List.getElem?_eq_getElem hy, hv]
      obtain ⟨o, ho⟩ := h.alive (held_var hy' s.objs)
      obtain ⟨t, ht, hta, hh⟩ := root_ok h ho
      obtain ⟨m1, e1, i1, f1, -⟩ := attach_ok h hh
      simp only [ht, e1, Outcome.bind_ok] at e
      have hf1 := flat_kept hf (attach_kept e1) i1
      cases f with
      | false =>
        obtain ⟨m, e2, e⟩ := bind_ok_inv e
        cases e
        exact flat_kept hf1 (release_kept _ _ e2) hg
      | true =>
        refine flat_kept (flat_alloc hf1 fun t' ht' => ?_) (assign_kept e) hg
        cases ht'
        -- what is viewed is not a view
        have : ∃ ot, s.objs[t]? = some (some ot) ∧ ∀ u, ot.body ≠ .view u := by
          cases hb : o.body with
          | view u =>
            obtain ⟨o', ho', hn⟩ := hf a o u ho hb
            have : t = u := by
              simp only [root, look_some ho, Outcome.bind_ok, hb] at ht
              cases ht
              rfl
            rw [this]
            exact ⟨o', ho', hn⟩
          | nums =>
            have : t = a := by
              simp only [root, look_some ho, Outcome.bind_ok, hb] at ht
              cases ht
              rfl
            rw [this]
            exact ⟨o, ho, fun u => by rw [hb]; exact nofun⟩
          | vars es =>
            have : t = a := by
              simp only [root, look_some ho, Outcome.bind_ok, hb] at ht
              cases ht
              rfl
            rw [this]
            exact ⟨o, ho, fun u => by rw [hb]; exact nofun⟩
        obtain ⟨ot, hot, hn⟩ := this
        obtain ⟨ot', hot', eb⟩ := f1.body hot i1 (.inl (by simp))
        exact ⟨ot', hot', fun u => by rw [eb]; exact hn u⟩
  | copy x y k c =>
    obtain ⟨hx, hy⟩ := hp
    simp only [step] at e
    unfold copy at e
    rw [var_ok hy] at e
    simp only [Outcome.bind_ok] at e
    cases hv : s.vars[y] with
    | none => rw [hv] at e; exact flat_kept hf (assign_kept e) hg
    | some a =>
      rw [hv] at e
      have hy' : s.vars[y]? = some (some a) := by rw [List.getElem?_eq_getElem hy, hv]
      obtain ⟨o, ho⟩ := h.alive (held_var hy' s.objs)
      simp only [look_some ho, Outcome.bind_ok] at e
      -- a new array with what another one holds
      have heap : ∀ {b : Nat} {ob : Obj}, s.objs[b]? = some (some ob) → (∀ u, ob.body ≠ .view u) →
          ∃ m1, copyHeap b s.objs = .ok (s.objs.length, m1) ∧ Inv m1 (s.objs.length :: (ptrs s.vars ++ [])) ∧ Flat m1 ∧ ∃ o', m1[s.objs.length]? = some (some o') ∧ ∀ u, o'.body ≠ .view u := by
        intro b ob hob hn
        obtain ⟨m1, e1, i1, f1, o', ho', eb⟩ := copyHeap_ok h hob
        refine ⟨m1, e1, i1, ?_, o', ho', fun u => by rw [eb]; exact hn u⟩
        unfold copyHeap at e1
        simp only [look_some hob, Outcome.bind_ok] at e1
        obtain ⟨m0, e0, e1⟩ := bind_ok_inv e1
        injection e1 with e1
        have e2 : (alloc ob.body m0).2 = m1 := by rw [e1]
        rw [← e2]
        obtain ⟨m0', e0', i0, -⟩ := attachAll_ok ob.body.kids h (fun c hc => .inr (mem_cells hob hc))
        cases e0.symm.trans e0'
        exact flat_alloc (flat_kept hf (attachAll_kept _ e0) i0) (fun t ht => absurd ht (hn t))
      have plain : (∀ u, o.body ≠ .view u) → (do
          if !k && !(← ofVars s.objs a) then .ok { s with lost := s.lost + 1 } else do
            let (h, m) ← copyHeap a s.objs
            assign (.var x) (some h) c { s with objs := m } : Outcome State) = .ok s' → Flat s'.objs := by
        intro hn e
        obtain ⟨v, -, e⟩ := bind_ok_inv e
        split at e
        · cases e; exact hf
        · obtain ⟨m1, e1, -, f1, -⟩ := heap ho hn
          rw [e1] at e
          exact flat_kept f1 (assign_kept e) hg
      cases hb : o.body with
      | nums => rw [hb] at e; exact plain (fun u => by rw [hb]; exact nofun) e
      | vars es => rw [hb] at e; exact plain (fun u => by rw [hb]; exact nofun) e
      | view t =>
        rw [hb] at e
        obtain ⟨v, -, e⟩ := bind_ok_inv e
        split at e
        · cases e; exact hf
        · obtain ⟨ot, hot, hn⟩ := hf a o t ho hb
          obtain ⟨m1, e1, -, f1, o', ho', hn'⟩ := heap hot hn
          rw [e1] at e
          exact flat_kept (flat_alloc f1 (fun t ht => by cases ht; exact ⟨o', ho', hn'⟩)) (assign_kept e) hg
  | put x i y c =>
    simp only [step] at e
    unfold put at e
    obtain ⟨p, hp, e⟩ := bind_ok_inv e
    split at e
    · cases e
    · obtain ⟨t, -, e⟩ := bind_ok_inv e
      obtain ⟨m1, e1, e⟩ := bind_ok_inv e
      obtain ⟨q, -, e⟩ := bind_ok_inv e
      obtain ⟨m2, e2, e⟩ := bind_ok_inv e
      obtain ⟨m3, e3, e⟩ := bind_ok_inv e
      obtain ⟨s4, e4, e⟩ := bind_ok_inv e
      obtain ⟨m5, e5, e⟩ := bind_ok_inv e
      obtain ⟨m6, e6, e⟩ := bind_ok_inv e
      cases e
      exact flat_kept hf ((((((attach_kept e1).trans (attachV_kept e2)).trans (attachV_kept e3)).trans (assign_kept e4)).trans (detachV_kept e5)).trans (release_kept _ _ e6)) hg
  | get x y i c d =>
    simp only [step] at e
    unfold Life.get at e
    obtain ⟨p, hp, e⟩ := bind_ok_inv e
    split at e
    · cases e
    · obtain ⟨m1, e1, e⟩ := bind_ok_inv e
      obtain ⟨old, -, e⟩ := bind_ok_inv e
      obtain ⟨vs, -, e⟩ := bind_ok_inv e
      obtain ⟨t, -, e⟩ := bind_ok_inv e
      obtain ⟨el, -, e⟩ := bind_ok_inv e
      obtain ⟨b, -, e⟩ := bind_ok_inv e
      split at e
      · obtain ⟨m2, e2, e⟩ := bind_ok_inv e
        cases e
        exact flat_kept hf ((attach_kept e1).trans (release_kept _ _ e2)) hg
      · obtain ⟨s2, e2, e⟩ := bind_ok_inv e
        obtain ⟨m3, e3, e⟩ := bind_ok_inv e
        obtain ⟨m4, e4, e⟩ := bind_ok_inv e
        have k4 := (((attach_kept e1).trans (write_kept e2)).trans (attach_kept e3)).trans (detachV_kept e4)
        split at e
        · obtain ⟨el, -, e⟩ := bind_ok_inv e
          obtain ⟨m5, e5, e⟩ := bind_ok_inv e
          obtain ⟨s6, e6, e⟩ := bind_ok_inv e
          obtain ⟨m7, e7, e⟩ := bind_ok_inv e
          cases e
          exact flat_kept hf (((k4.trans (attachV_kept e5)).trans (assign_kept e6)).trans (release_kept _ _ e7)) hg
        · obtain ⟨s5, e5, e⟩ := bind_ok_inv e
          obtain ⟨m6, e6, e⟩ := bind_ok_inv e
          obtain ⟨m7, e7, e⟩ := bind_ok_inv e
          cases e
          exact flat_kept hf (((k4.trans (write_kept e5)).trans (release_kept _ _ e6)).trans (release_kept _ _ e7)) hg

/-- C144: a view is never one of a view, however it was made. -/
theorem view_flat {s : State} (h : Reach s) {a t : Nat} {o : Obj} (ho : s.objs[a]? = some (some o)) (hb : o.body = .view t) :
    ∃ o', s.objs[t]? = some (some o') ∧ (o'.body = .nums ∨ ∃ es, o'.body = .vars es) := by
  have hf : Flat s.objs := by
    clear ho hb
    induction h with
    | start => intro a o t h; simp [start] at h
    | step o h hp he ih => exact flat_step (reach_good h) ih o hp he
  obtain ⟨o', ho', hn⟩ := hf a o t ho hb
  refine ⟨o', ho', ?_⟩
  cases hb' : o'.body with
  | nums => exact .inl rfl
  | vars es => exact .inr ⟨es, rfl⟩
  | view u => exact absurd hb' (hn u)

/-- The variable does not hold a view. -/
def NoView (s : State) (x : Nat) : Prop := ∀ (a : Nat) (o : Obj) (t : Nat), Holds s x a → s.objs[a]? = some (some o) → o.body ≠ .view t

/-- Assigning a new array, held by a temporary. -/
theorem assign_new {s : State} {m : Objs} {x v : Nat} {c : Bool} {ov : Obj} (hx : x < s.vars.length) (h : Good s []) (f : Frame s.objs m)
    (hi : Inv m (v :: (ptrs s.vars ++ []))) (hc : c = false ∨ NoView s x) (hv : m[v]? = some (some ov)) :
    ∃ s', assign (.var x) (some v) c { s with objs := m } = .ok s' ∧ Good s' [] ∧ s'.vars = s.vars.set x (some v) ∧
      (∀ b ob, m[b]? = some (some ob) → Referred s' b → ∃ ob', s'.objs[b]? = some (some ob') ∧ ob'.body = ob.body) ∧
      ∃ ov', s'.objs[v]? = some (some ov') ∧ ov'.body = ov.body := by
  obtain ⟨s', e, g, l, -, ch⟩ := assign_ok (s := { s with objs := m }) (T := []) (sl := .var x) (p := some v) c hx
    (hi.perm fun a => by simp only [Option.toList, List.count_append, List.count_cons, List.count_nil, List.cons_append, List.nil_append]; omega)
  have hvars : s'.vars = s.vars.set x (some v) := assign_holds (s := { s with objs := m }) e (hc.imp id fun hn a o t ha (ho : m[a]? = some (some o)) => by
    obtain ⟨oa, hoa⟩ := h.alive (held_var (T := []) (x := x) ha s.objs)
    obtain ⟨o2, ho2, eb⟩ := f.2 a o (alive_of hoa) ho
    rw [← eb]
    exact hn a o2 t ha ho2)
  have key : ∀ b ob, m[b]? = some (some ob) → Referred s' b → ∃ ob', s'.objs[b]? = some (some ob') ∧ ob'.body = ob.body := by
    intro b ob hob hr
    unfold Referred at hr
    rw [holds_iff, points_iff] at hr
    obtain ⟨ob', hob'⟩ := g.alive (a := b) (hr.imp (fun h => by simpa using h) id)
    obtain ⟨o2, ho2, eb | ⟨_, _, hh, _⟩⟩ := ch.2 b ob' (alive_of hob) hob'
    · have ho2 : m[b]? = some (some o2) := ho2
      rw [hob] at ho2
      cases ho2
      exact ⟨ob', hob', eb⟩
    · cases hh
  refine ⟨s', e, g, hvars, key, key v ov hv (.inl ⟨x, ?_⟩)⟩
  unfold Holds
  rw [hvars]
  exact List.getElem?_set_self hx

theorem new_index {m : Objs} (b : Body) : (alloc b m).2[m.length]? = some (some ⟨1, b⟩) := by simp [alloc]

/-- C144: `x = y.view(shape)`, if the shape fits, makes `x` a new view of the array that `y` holds or is a view of.  Missing: if `x` was a view of that shape, the
    elements are copied into it instead (`assign_copies`). -/
theorem view_of_partial {s : State} (h : Reach s) {x y a : Nat} {c : Bool} {o : Obj} (hx : x < s.vars.length) (hy : Holds s y a) (ho : s.objs[a]? = some (some o))
    (hc : c = false ∨ NoView s x) : ∃ s' v ov, step (.view x y true c) s = .ok s' ∧ s'.vars = s.vars.set x (some v) ∧ ¬ Allocated s v ∧ s'.objs[v]? = some (some ov) ∧
      ((∃ t, o.body = .view t ∧ ov.body = .view t) ∨ ((∀ t, o.body ≠ .view t) ∧ ov.body = .view a)) := by
  have g := reach_good h
  obtain ⟨t, ht, -, hh⟩ := root_ok g ho
  obtain ⟨m1, e1, i1, f1, -⟩ := attach_ok g hh
  obtain ⟨i2, f2⟩ := alloc_inv (m := m1) (b := .view t) (R := ptrs s.vars ++ []) i1
  obtain ⟨s', e, -, hv, -, ov, hov, hb⟩ := assign_new (c := c) hx g (f1.trans f2) i2 hc (new_index (.view t))
  refine ⟨s', m1.length, ov, ?_, hv, ?_, hov, ?_⟩
  · simp only [step, view, var_some hy, ht, e1, Outcome.bind_ok, if_true]
    exact e
  · rintro ⟨o', ho'⟩
    have := alive_of ho'
    have := f1.1
    omega
  · rw [hb]
    cases hbo : o.body with
    | view u =>
      simp only [root, look_some ho, Outcome.bind_ok, hbo] at ht
      cases ht
      exact .inl ⟨t, rfl, rfl⟩
    | nums =>
      simp only [root, look_some ho, Outcome.bind_ok, hbo] at ht
      cases ht
      exact .inr ⟨fun t => nofun, rfl⟩
    | vars es =>
      simp only [root, look_some ho, Outcome.bind_ok, hbo] at ht
      cases ht
      exact .inr ⟨fun t => nofun, rfl⟩

/-- A string with a view of it in the second of three variables. -/
def viewed : State := ⟨[some 0, some 1, none], [some ⟨2, .nums⟩, some ⟨1, .view 0⟩], 0⟩

theorem viewed_reach : Reach viewed := by
  have h1 : Reach ⟨[none], [], 0⟩ := .step .decl .start trivial rfl
  have h2 : Reach ⟨[some 0], [some ⟨1, .nums⟩], 0⟩ := .step (.nums 0 false) h1 (by simp [Proper]) rfl
  have h3 : Reach ⟨[some 0, none], [some ⟨1, .nums⟩], 0⟩ := .step .decl h2 trivial rfl
  have h4 : Reach ⟨[some 0, some 1], [some ⟨2, .nums⟩, some ⟨1, .view 0⟩], 0⟩ := .step (.view 1 0 true false) h3 (by simp [Proper]) rfl
  exact .step .decl h4 trivial rfl

-- a view of the view is one of the string
example : Holds viewed 1 1 ∧ NoView viewed 2 ∧ step (.view 2 1 true true) viewed = .ok ⟨[some 0, some 1, some 2], [some ⟨3, .nums⟩, some ⟨1, .view 0⟩, some ⟨1, .view 0⟩], 0⟩ :=
  ⟨rfl, (fun a o t h => by cases h), rfl⟩

/-- C144: `x = y` makes both hold the same array or view.  Missing: as above. -/
theorem assign_shares_partial {s : State} (h : Reach s) {x y : Nat} {c : Bool} {p : Option Nat} (hx : x < s.vars.length) (hy : s.vars[y]? = some p)
    (hc : c = false ∨ NoView s x) : ∃ s', step (.assign x y c) s = .ok s' ∧ s'.vars = s.vars.set x p := by
  have g := reach_good h
  have hy' := (List.getElem?_eq_some_iff.1 hy).1
  have hyv : s.vars[y] = p := (List.getElem?_eq_some_iff.1 hy).2
  obtain ⟨m1, e1, i1, f1, -⟩ := attachV_ok (p := p) g (fun b hb => .inl (by
    have := mem_ptrs (vs := s.vars) (x := y) (a := b) (by rw [hy, hb])
    simp [this]))
  obtain ⟨s', e, -⟩ := step_ok g (.assign x y c) ⟨hx, hy'⟩
  refine ⟨s', e, ?_⟩
  simp only [step, var_some hy, e1, Outcome.bind_ok] at e
  refine assign_holds (s := { s with objs := m1 }) e (hc.imp id fun hn a o t ha (ho : m1[a]? = some (some o)) => ?_)
  obtain ⟨oa, hoa⟩ := g.alive (held_var (T := []) (x := x) ha s.objs)
  obtain ⟨o2, ho2, eb⟩ := f1.2 a o (alive_of hoa) ho
  rw [← eb]
  exact hn a o2 t ha ho2

example : step (.assign 2 1 true) viewed = .ok ⟨[some 0, some 1, some 1], [some ⟨2, .nums⟩, some ⟨2, .view 0⟩], 0⟩ := rfl

/-- Whatever is assigned to a view of the same type and shape, the variable holds the view it has held. -/
theorem assign_copies {s : State} (h : Reach s) {x y a b : Nat} {o : Obj} {t : Nat} (hx : Holds s x a) (ho : s.objs[a]? = some (some o)) (hb : o.body = .view t)
    (hy : Holds s y b) (hk : (IsNums s a ∧ IsNums s b) ∨ ∃ es fs, IsVars s a es ∧ IsVars s b fs) : ∃ s', step (.assign x y true) s = .ok s' ∧ s'.vars = s.vars := by
  have g := reach_good h
  have hx' := (List.getElem?_eq_some_iff.1 hx).1
  have hy' := (List.getElem?_eq_some_iff.1 hy).1
  obtain ⟨s', e, -⟩ := step_ok g (.assign x y true) ⟨hx', hy'⟩
  refine ⟨s', e, ?_⟩
  obtain ⟨m1, e1, i1, f1, -⟩ := attach_ok (a := b) g (held_var hy _)
  simp only [step, var_some hy, attachV, e1, Outcome.bind_ok] at e
  obtain ⟨old, hr, e⟩ := bind_ok_inv e
  have hold : old = some a := by
    have hx2 : s.vars[x]? = some (some a) := hx
    simp only [Life.read, hx2] at hr
    cases hr
    rfl
  subst hold
  have ha1 : Held m1 (b :: (ptrs s.vars ++ [])) a := .inl (by have := mem_ptrs hx; simp [this])
  have hb1 : Held m1 (b :: (ptrs s.vars ++ [])) b := .inl (by simp)
  have hcp : copyable m1 true (some a) (some b) = .ok true := by
    obtain ⟨o1, ho1, eb1⟩ := f1.body ho i1 ha1
    have hvs : ∃ v, ofVars m1 a = .ok v ∧ ofVars m1 b = .ok v := by
      rcases hk with ⟨h1, h2⟩ | ⟨es, fs, h1, h2⟩
      · refine ⟨false, ?_, ?_⟩
        · obtain ⟨t, hn⟩ := h1.numbers
          exact (hn.frame f1 i1 ha1).ofVars
        · obtain ⟨t, hn⟩ := h2.numbers
          exact (hn.frame f1 i1 hb1).ofVars
      · refine ⟨true, ?_, ?_⟩
        · obtain ⟨t, hn⟩ := h1.elem
          exact (hn.frame f1 i1 ha1).ofVars
        · obtain ⟨t, hn⟩ := h2.elem
          exact (hn.frame f1 i1 hb1).ofVars
    obtain ⟨v, hv1, hv2⟩ := hvs
    simp only [copyable, look_some ho1, Outcome.bind_ok, eb1, hb, hv1, hv2]
    simp
  simp only [hcp, Outcome.bind_ok, if_true] at e
  obtain ⟨m2, -, e⟩ := bind_ok_inv e
  cases e
  rfl

example : IsNums viewed 1 ∧ IsNums viewed 0 ∧ step (.assign 1 0 true) viewed = .ok viewed :=
  ⟨⟨_, rfl, .inr ⟨0, _, rfl, rfl, rfl⟩⟩, ⟨_, rfl, .inl rfl⟩, rfl⟩

/-- C144: `x = y.copy()` makes `x` hold a new array with the same contents; if `y` is a view, a new view of a new array with the contents of the array viewed.
    Missing: as above, and arrays of complex numbers, for which there is an exception. -/
theorem copy_own_partial {s : State} (h : Reach s) {x y a : Nat} {c : Bool} {o : Obj} (hx : x < s.vars.length) (hy : Holds s y a) (ho : s.objs[a]? = some (some o))
    (hc : c = false ∨ NoView s x) : ∃ s' v ov, step (.copy x y true c) s = .ok s' ∧ s'.vars = s.vars.set x (some v) ∧ ¬ Allocated s v ∧ s'.objs[v]? = some (some ov) ∧
      (((∀ t, o.body ≠ .view t) ∧ ov.body = o.body) ∨
        ∃ t ot u ou, o.body = .view t ∧ s.objs[t]? = some (some ot) ∧ ov.body = .view u ∧ ¬ Allocated s u ∧ u ≠ v ∧ s'.objs[u]? = some (some ou) ∧ ou.body = ot.body) := by
  have g := reach_good h
  have fresh : ∀ {v : Nat}, s.objs.length ≤ v → ¬ Allocated s v := by
    rintro v hv ⟨o', ho'⟩
    have := alive_of ho'
    omega
  obtain ⟨vs, hvs⟩ := ofVars_ok g ho
  have plain : (∀ t, o.body ≠ .view t) → ∃ s' v ov, (do
          if !true && !(← ofVars s.objs a) then .ok { s with lost := s.lost + 1 } else do
            let (h, m) ← copyHeap a s.objs
            assign (.var x) (some h) c { s with objs := m } : Outcome State) = .ok s' ∧ s'.vars = s.vars.set x (some v) ∧ ¬ Allocated s v ∧ s'.objs[v]? = some (some ov) ∧ ov.body = o.body := by
    intro hn
    obtain ⟨m1, e1, i1, f1, o', ho', eb⟩ := copyHeap_ok g ho
    obtain ⟨s', e, -, hv, -, ov, hov, hb⟩ := assign_new (c := c) hx g f1 i1 hc ho'
    refine ⟨s', s.objs.length, ov, ?_, hv, fresh (Nat.le_refl _), hov, hb.trans eb⟩
    simp only [hvs, Outcome.bind_ok, Bool.not_true, Bool.false_and, Bool.false_eq_true, if_false, e1]
    exact e
  cases hb : o.body with
  | nums =>
    obtain ⟨s', v, ov, e, h1, h2, h3, h4⟩ := plain (fun t => by rw [hb]; exact nofun)
    refine ⟨s', v, ov, ?_, h1, h2, h3, .inl ⟨fun t => nofun, by rw [h4, hb]⟩⟩
    simp only [step, copy, var_some hy, look_some ho, Outcome.bind_ok, hb]
    exact e
  | vars es =>
    obtain ⟨s', v, ov, e, h1, h2, h3, h4⟩ := plain (fun t => by rw [hb]; exact nofun)
    refine ⟨s', v, ov, ?_, h1, h2, h3, .inl ⟨fun t => nofun, by rw [h4, hb]⟩⟩
    simp only [step, copy, var_some hy, look_some ho, Outcome.bind_ok, hb]
    exact e
  | view t =>
    obtain ⟨ot, hot⟩ := g.alive (a := t) (.inr (mem_cells ho (by rw [hb]; exact List.mem_singleton.2 rfl)))
    obtain ⟨m1, e1, i1, f1, o', ho', eb⟩ := copyHeap_ok g hot
    obtain ⟨i2, f2⟩ := alloc_inv (m := m1) (b := .view s.objs.length) (R := ptrs s.vars ++ []) i1
    obtain ⟨s', e, -, hv, key, ov, hov, hbv⟩ := assign_new (c := c) hx g (f1.trans f2) i2 hc (new_index (.view s.objs.length))
    have hl := alive_of ho'
    obtain ⟨ou, hou, hbu⟩ := key s.objs.length o' (by simp only [alloc]; rw [List.getElem?_append_left hl]; exact ho') (.inr ⟨_, _, hov, .inl hbv⟩)
    refine ⟨s', m1.length, ov, ?_, hv, fresh f1.1, hov, .inr ⟨t, ot, s.objs.length, ou, rfl, hot, hbv, fresh (Nat.le_refl _), by omega, hou, hbu.trans eb⟩⟩
    simp only [step, copy, var_some hy, look_some ho, Outcome.bind_ok, hb, hvs, Bool.not_true, Bool.false_and, Bool.false_eq_true, if_false, e1]
    exact e

example : step (.copy 2 1 true false) viewed = .ok ⟨[some 0, some 1, some 3], [some ⟨2, .nums⟩, some ⟨1, .view 0⟩, some ⟨1, .nums⟩, some ⟨1, .view 2⟩], 0⟩ := rfl

/-- C144: `x = y[i]` makes `x` hold what the element of the array, or of the one viewed, holds.  Missing: as above, if `x` is a view, and if `y` is a view of the
    shape of the element, to which it is then assigned. -/
theorem get_elem_partial {s : State} (h : Reach s) {x i y a : Nat} {es : List (Option Nat)} {p : Option Nat} {c d : Bool} (hx : x < s.vars.length) (hy : Holds s y a) (he : IsVars s a es)
    (hi : es[i]? = some p) (hc : c = false ∨ NoView s x) (hd : d = false ∨ NoView s y) : ∃ s', step (.get x y i c d) s = .ok s' ∧ s'.vars = s.vars.set x p := by
  obtain ⟨t, he'⟩ := he.elem
  have hil := (List.getElem?_eq_some_iff.1 hi).1
  obtain ⟨s', e, -, -, -, k⟩ := get_ok (reach_good h) hx hy (.inl ⟨t, es, he', hil⟩) c d
  exact ⟨s', e, k hc (hd.imp id fun hn o t ho => hn a o t hy ho) t es p he' hi⟩

/-- C144: `x[i] = y` makes the element of the array, or of the one viewed, hold what `y` holds, and changes no variable.  Missing: as above, if the element is a
    view. -/
theorem put_elem_partial {s : State} (h : Reach s) {x i y a : Nat} {es : List (Option Nat)} {p : Option Nat} {c : Bool} (hx : Holds s x a) (he : IsVars s a es) (hi : i < es.length)
    (hy : s.vars[y]? = some p) (hc : c = false ∨ ∀ (b : Nat) (o : Obj) (t : Nat), es[i]? = some (some b) → s.objs[b]? = some (some o) → o.body ≠ .view t) :
    ∃ s', step (.put x i y c) s = .ok s' ∧ s'.vars = s.vars ∧ IsVars s' a (es.set i p) := by
  obtain ⟨t, he'⟩ := he.elem
  have hyl := (List.getElem?_eq_some_iff.1 hy).1
  have hyv : s.vars[y] = p := (List.getElem?_eq_some_iff.1 hy).2
  obtain ⟨s', e, -, hv, o, ho, hb⟩ := put_elem (reach_good h) hx he' hi hyl c (hc.imp id fun hn b o t hb => hn b o t (by rw [List.getElem?_eq_getElem hi, hb]))
  rw [hyv] at hb
  refine ⟨s', e, hv, o, ho, ?_⟩
  rcases hb with ⟨-, h1⟩ | ⟨h1, o', h2, h3⟩
  · exact .inl h1
  · exact .inr ⟨t, o', h1, h2, h3⟩

/-- An array of two vars, a view of it and a string. -/
def viewedVars : State := ⟨[some 0, some 1, some 2], [some ⟨2, .vars [none, none]⟩, some ⟨1, .view 0⟩, some ⟨1, .nums⟩], 0⟩

-- setting an element of the view sets that of the array
example : Holds viewedVars 1 1 ∧ IsVars viewedVars 1 [none, none] ∧
    step (.put 1 1 2 true) viewedVars = .ok ⟨[some 0, some 1, some 2], [some ⟨2, .vars [none, some 2]⟩, some ⟨1, .view 0⟩, some ⟨2, .nums⟩], 0⟩ :=
  ⟨rfl, ⟨_, rfl, .inr ⟨0, _, rfl, rfl, rfl⟩⟩, rfl⟩

-- an element of the view is that of the array
example : Holds viewedVars 1 1 ∧ IsVars viewedVars 1 [none, none] ∧ NoView viewedVars 2 ∧
    step (.get 2 1 0 true false) viewedVars = .ok ⟨[some 0, some 1, none], [some ⟨2, .vars [none, none]⟩, some ⟨1, .view 0⟩, none], 0⟩ := by
  refine ⟨rfl, ⟨_, rfl, .inr ⟨0, _, rfl, rfl, rfl⟩⟩, ?_, rfl⟩
  intro a o t h ho
  cases h
  cases ho
  exact nofun

example : Reach viewedVars := by
  have h1 : Reach ⟨[none], [], 0⟩ := .step .decl .start trivial rfl
  have h2 : Reach ⟨[some 0], [some ⟨1, .vars [none, none]⟩], 0⟩ := .step (.array 0 2 false) h1 (by simp [Proper]) rfl
  have h3 : Reach ⟨[some 0, none], [some ⟨1, .vars [none, none]⟩], 0⟩ := .step .decl h2 trivial rfl
  have h4 : Reach ⟨[some 0, some 1], [some ⟨2, .vars [none, none]⟩, some ⟨1, .view 0⟩], 0⟩ := .step (.view 1 0 true false) h3 (by simp [Proper]) rfl
  have h5 : Reach ⟨[some 0, some 1, none], [some ⟨2, .vars [none, none]⟩, some ⟨1, .view 0⟩], 0⟩ := .step .decl h4 trivial rfl
  exact .step (.nums 2 false) h5 (by simp [Proper]) rfl

#print axioms life_safe
#print axioms life_exact
#print axioms life_end_partial
#print axioms life_end_acyclic_partial
#print axioms life_lost_partial
#print axioms refused_lost
#print axioms cycle_left
#print axioms view_flat
#print axioms view_of_partial
#print axioms assign_shares_partial
#print axioms assign_copies
#print axioms copy_own_partial
#print axioms put_elem_partial
#print axioms get_elem_partial

end Libube.LifeProps

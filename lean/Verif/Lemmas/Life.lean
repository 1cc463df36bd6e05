import Verif.Model.Life
import Mathlib.Tactic.Tauto

/-! # Reference counts of arrays and views are exact -/

namespace Libube.LifeInv

open Life

theorem count_set {α : Type} (f : α → List Nat) : ∀ (l : List α) (x : Nat) (old p : α), l[x]? = some old → ∀ b,
    ((l.set x p).flatMap f).count b + (f old).count b = (l.flatMap f).count b + (f p).count b
  | [], _, _, _, h, _ => by simp at h
  | y :: l, 0, old, p, h, b => by
    simp only [List.getElem?_cons_zero, Option.some.injEq] at h
    subst h
    simp only [List.set_cons_zero, List.flatMap_cons, List.count_append]
    omega
  | y :: l, x + 1, old, p, h, b => by
    simp only [List.getElem?_cons_succ] at h
    have := count_set f l x old p h b
    simp only [List.set_cons_succ, List.flatMap_cons, List.count_append]
    omega

def kidsOf : Option Obj → List Nat
  | none => []
  | some o => o.body.kids

/-- All that arrays and views hold. -/
def cells (m : Objs) : List Nat := m.flatMap kidsOf

/-- The count of an array, 0 if it is not allocated. -/
def rcOf (m : Objs) (a : Nat) : Nat :=
  match m[a]? with
  | some (some o) => o.rc
  | _ => 0

/-- All counts are exact: `R` are the references from elsewhere. -/
structure Inv (m : Objs) (R : List Nat) : Prop where
  exact : ∀ a, rcOf m a = R.count a + (cells m).count a
  pos : ∀ (a : Nat) (o : Obj), m[a]? = some (some o) → 0 < o.rc

theorem Inv.perm {m : Objs} {R R' : List Nat} (h : Inv m R) (hc : ∀ a, R.count a = R'.count a) : Inv m R' :=
  ⟨fun a => by rw [h.exact, hc], h.pos⟩

/-- Something refers to it. -/
def Held (m : Objs) (R : List Nat) (a : Nat) : Prop := a ∈ R ∨ a ∈ cells m

theorem Inv.alive {m : Objs} {R : List Nat} (h : Inv m R) {a : Nat} (ha : Held m R a) : ∃ o, m[a]? = some (some o) := by
  have h1 := h.exact a
  have h2 : 0 < R.count a + (cells m).count a := by
    rcases ha with ha | ha
    · have := List.count_pos_iff.2 ha; omega
    · have := List.count_pos_iff.2 ha; omega
  unfold rcOf at h1
  split at h1
  · exact ⟨_, by assumption⟩
  · omega

theorem Inv.held {m : Objs} {R : List Nat} (h : Inv m R) {a : Nat} {o : Obj} (ha : m[a]? = some (some o)) : Held m R a := by
  have h1 := h.exact a
  have h2 := h.pos a o ha
  unfold rcOf at h1
  rw [ha] at h1
  simp only at h1
  by_cases hr : 0 < R.count a
  · exact .inl (List.count_pos_iff.1 hr)
  · exact .inr (List.count_pos_iff.1 (by omega))

theorem look_some {m : Objs} {a : Nat} {o : Obj} (h : m[a]? = some (some o)) : look m a = .ok o := by
  unfold look
  rw [h]

theorem rcOf_set {m : Objs} {a : Nat} (h : a < m.length) (e : Option Obj) (b : Nat) :
    rcOf (m.set a e) b = if b = a then (match e with | some o => o.rc | none => 0) else rcOf m b := by
  unfold rcOf
  by_cases hb : b = a
  · subst hb
    rw [if_pos rfl, List.getElem?_set_self h]
    cases e <;> rfl
  · rw [if_neg hb, List.getElem?_set_ne (Ne.symm hb)]

theorem cells_set {m : Objs} {a : Nat} {e : Option Obj} (h : m[a]? = some e) (e' : Option Obj) (b : Nat) :
    (cells (m.set a e')).count b + (kidsOf e).count b = (cells m).count b + (kidsOf e').count b :=
  count_set kidsOf m a e e' h b

/-- What is still there has not changed. -/
def Frame (m m' : Objs) : Prop := m.length ≤ m'.length ∧ ∀ (b : Nat) (o' : Obj), b < m.length → m'[b]? = some (some o') → ∃ o, m[b]? = some (some o) ∧ o.body = o'.body

theorem Frame.refl (m : Objs) : Frame m m := ⟨Nat.le_refl _, fun _ o _ h => ⟨o, h, rfl⟩⟩

theorem Frame.trans {m m' m'' : Objs} (h : Frame m m') (h' : Frame m' m'') : Frame m m'' :=
  ⟨Nat.le_trans h.1 h'.1, fun b o hb ho => by
    obtain ⟨o1, h1, e1⟩ := h'.2 b o (Nat.lt_of_lt_of_le hb h.1) ho
    obtain ⟨o2, h2, e2⟩ := h.2 b o1 hb h1
    exact ⟨o2, h2, e2.trans e1⟩⟩

/-- The body of an array that is there before and after. -/
theorem Frame.body {m m' : Objs} (h : Frame m m') {a : Nat} {o : Obj} (ho : m[a]? = some (some o)) {R : List Nat} (hi : Inv m' R) (ha : Held m' R a) :
    ∃ o', m'[a]? = some (some o') ∧ o'.body = o.body := by
  obtain ⟨o', h'⟩ := hi.alive ha
  obtain ⟨o1, h1, e⟩ := h.2 a o' (List.getElem?_eq_some_iff.1 ho).1 h'
  cases ho.symm.trans h1
  exact ⟨o', h', e.symm⟩

theorem frame_set {m : Objs} {a : Nat} {o o' : Obj} (h : m[a]? = some (some o)) (he : o'.body = o.body) : Frame m (m.set a (some o')) := by
  refine ⟨by simp, fun b ob hb hob => ?_⟩
  by_cases hba : b = a
  · subst hba
    rw [List.getElem?_set_self hb] at hob
    cases hob
    exact ⟨o, h, he.symm⟩
  · rw [List.getElem?_set_ne (Ne.symm hba)] at hob
    exact ⟨ob, hob, rfl⟩

theorem frame_free (m : Objs) (a : Nat) : Frame m (m.set a none) := by
  refine ⟨by simp, fun b ob hb hob => ?_⟩
  by_cases hba : b = a
  · subst hba
    rw [List.getElem?_set_self hb] at hob
    cases hob
  · rw [List.getElem?_set_ne (Ne.symm hba)] at hob
    exact ⟨ob, hob, rfl⟩

theorem attach_ok {m : Objs} {R : List Nat} (h : Inv m R) {a : Nat} (ha : Held m R a) :
    ∃ m', attach a m = .ok m' ∧ Inv m' (a :: R) ∧ Frame m m' ∧ (∀ c, c ∈ cells m' ↔ c ∈ cells m) := by
  obtain ⟨o, ho⟩ := h.alive ha
  have hl := (List.getElem?_eq_some_iff.1 ho).1
  refine ⟨m.set a (some { o with rc := o.rc + 1 }), ?_, ⟨fun b => ?_, fun b ob hb => ?_⟩, frame_set ho rfl, fun c => ?_⟩
  · unfold attach
    rw [look_some ho]
    rfl
  · have h1 := h.exact b
    have h2 := cells_set ho (some { o with rc := o.rc + 1 }) b
    simp only [kidsOf] at h2
    rw [rcOf_set hl, List.count_cons]
    by_cases hb : b = a
    · subst hb
      have : rcOf m b = o.rc := by unfold rcOf; rw [ho]
      simp
      omega
    · have : ¬ (a == b) = true := by simpa using Ne.symm hb
      rw [if_neg hb, if_neg this]
      omega
  · by_cases hba : b = a
    · subst hba
      rw [List.getElem?_set_self hl] at hb
      cases hb
      exact Nat.succ_pos _
    · rw [List.getElem?_set_ne (Ne.symm hba)] at hb
      exact h.pos b ob hb
  · have h2 := cells_set ho (some { o with rc := o.rc + 1 }) c
    simp only [kidsOf] at h2
    rw [← List.count_pos_iff, ← List.count_pos_iff]
    omega

theorem weight_eq (m : Objs) : weight m = (cells m).length := by
  induction m with
  | nil => rfl
  | cons e m ih => cases e <;> simp [weight, cells, kidsOf, ih] <;> rfl

theorem weight_set {m : Objs} {a : Nat} {e : Option Obj} (h : m[a]? = some e) (e' : Option Obj) :
    weight (m.set a e') + (kidsOf e).length = weight m + (kidsOf e').length := by
  induction m generalizing a with
  | nil => simp at h
  | cons x m ih =>
    cases a with
    | zero =>
      simp only [List.getElem?_cons_zero, Option.some.injEq] at h
      subst h
      cases x <;> cases e' <;> simp only [List.set_cons_zero, weight, kidsOf, List.length_nil] <;> omega
    | succ a =>
      simp only [List.getElem?_cons_succ] at h
      have := ih h
      cases x <;> simp only [List.set_cons_succ, weight] <;> omega

theorem release_ok {R : List Nat} : ∀ (n : Nat) (w : List Nat) (m : Objs), Inv m (w ++ R) → weight m + w.length < n →
    ∃ m', release n w m = .ok m' ∧ Inv m' R ∧ Frame m m'
  | 0, _, _, _, hn => by omega
  | n + 1, [], m, h, _ => ⟨m, rfl, h, .refl m⟩
  | n + 1, a :: w, m, h, hn => by
    obtain ⟨o, ho⟩ := h.alive (a := a) (.inl (by simp))
    have hl := (List.getElem?_eq_some_iff.1 ho).1
    have hp := h.pos a o ho
    have hra : rcOf m a = o.rc := by unfold rcOf; rw [ho]
    simp only [List.length_cons] at hn
    by_cases h1 : o.rc = 1
    · have hw := weight_set ho none
      simp only [kidsOf, List.length_nil] at hw
      have hi : Inv (m.set a none) ((o.body.kids ++ w) ++ R) := by
        refine ⟨fun b => ?_, fun b ob hb => ?_⟩
        · have e1 := h.exact b
          have e2 := cells_set ho none b
          simp only [kidsOf, List.count_nil] at e2
          rw [rcOf_set hl]
          simp only [List.cons_append, List.count_cons, List.count_append] at e1 ⊢
          by_cases hb : b = a
          · subst hb
            simp only [beq_self_eq_true, if_true] at e1 ⊢
            omega
          · have : ¬ (a == b) = true := by simpa using Ne.symm hb
            rw [if_neg this] at e1
            rw [if_neg hb]
            omega
        · by_cases hba : b = a
          · subst hba
            rw [List.getElem?_set_self hl] at hb
            cases hb
          · rw [List.getElem?_set_ne (Ne.symm hba)] at hb
            exact h.pos b ob hb
      obtain ⟨m', e, i, f⟩ := release_ok (R := R) n (o.body.kids ++ w) (m.set a none) hi (by simp only [List.length_append]; omega)
      refine ⟨m', ?_, i, (frame_free m a).trans f⟩
      simp only [release, look_some ho, Outcome.bind_ok]
      rw [if_neg (by omega), if_pos h1]
      exact e
    · have hw := weight_set ho (some { o with rc := o.rc - 1 })
      simp only [kidsOf] at hw
      have hi : Inv (m.set a (some { o with rc := o.rc - 1 })) (w ++ R) := by
        refine ⟨fun b => ?_, fun b ob hb => ?_⟩
        · have e1 := h.exact b
          have e2 := cells_set ho (some { o with rc := o.rc - 1 }) b
          simp only [kidsOf] at e2
          rw [rcOf_set hl]
          simp only [List.cons_append, List.count_cons, List.count_append] at e1 ⊢
          by_cases hb : b = a
          · subst hb
            simp only [beq_self_eq_true, if_true] at e1 ⊢
            omega
          · have : ¬ (a == b) = true := by simpa using Ne.symm hb
            rw [if_neg this] at e1
            rw [if_neg hb]
            omega
        · by_cases hba : b = a
          · subst hba
            rw [List.getElem?_set_self hl] at hb
            cases hb
            simp only
            omega
          · rw [List.getElem?_set_ne (Ne.symm hba)] at hb
            exact h.pos b ob hb
      obtain ⟨m', e, i, f⟩ := release_ok (R := R) n w (m.set a (some { o with rc := o.rc - 1 })) hi (by omega)
      refine ⟨m', ?_, i, Frame.trans (frame_set (o' := { o with rc := o.rc - 1 }) ho rfl) f⟩
      simp only [release, look_some ho, Outcome.bind_ok]
      rw [if_neg (by omega), if_neg h1]
      exact e

/-- Detaching frees what nothing else refers to, and uses nothing that has been freed. -/
theorem detach_ok {m : Objs} {a : Nat} {R : List Nat} (h : Inv m (a :: R)) : ∃ m', detach a m = .ok m' ∧ Inv m' R ∧ Frame m m' :=
  release_ok (weight m + 2) [a] m h (by simp)

theorem attachV_ok {m : Objs} {R : List Nat} (h : Inv m R) {p : Option Nat} (ha : ∀ a, p = some a → Held m R a) :
    ∃ m', attachV p m = .ok m' ∧ Inv m' (p.toList ++ R) ∧ Frame m m' ∧ (∀ c, c ∈ cells m' ↔ c ∈ cells m) := by
  cases p with
  | none => exact ⟨m, rfl, h, .refl m, fun _ => Iff.rfl⟩
  | some a => exact attach_ok h (ha a rfl)

theorem detachV_ok {m : Objs} {p : Option Nat} {R : List Nat} (h : Inv m (p.toList ++ R)) : ∃ m', detachV p m = .ok m' ∧ Inv m' R ∧ Frame m m' := by
  cases p with
  | none => exact ⟨m, rfl, h, .refl m⟩
  | some a => exact detach_ok h

theorem mem_cells {m : Objs} {a c : Nat} {o : Obj} (h : m[a]? = some (some o)) (hc : c ∈ o.body.kids) : c ∈ cells m := by
  unfold cells
  rw [List.mem_flatMap]
  exact ⟨some o, List.mem_of_getElem? h, hc⟩

theorem root_ok {m : Objs} {R : List Nat} (h : Inv m R) {a : Nat} {o : Obj} (ha : m[a]? = some (some o)) :
    ∃ t, root m a = .ok t ∧ (t = a ∨ o.body = .view t) ∧ Held m R t := by
  unfold root
  rw [look_some ha]
  simp only [Outcome.bind_ok]
  cases hb : o.body with
  | nums => exact ⟨a, rfl, .inl rfl, h.held ha⟩
  | vars es => exact ⟨a, rfl, .inl rfl, h.held ha⟩
  | view t => exact ⟨t, rfl, .inr rfl, .inr (mem_cells ha (by rw [hb]; exact List.mem_singleton.2 rfl))⟩

theorem ofVars_ok {m : Objs} {R : List Nat} (h : Inv m R) {a : Nat} {o : Obj} (ha : m[a]? = some (some o)) : ∃ v, ofVars m a = .ok v := by
  obtain ⟨t, ht, -, hh⟩ := root_ok h ha
  obtain ⟨ot, hot⟩ := h.alive hh
  unfold ofVars
  rw [ht]
  simp only [Outcome.bind_ok, look_some hot]
  cases ot.body
  · exact ⟨_, rfl⟩
  · exact ⟨_, rfl⟩
  · exact ⟨_, rfl⟩

theorem copyable_ok {m : Objs} {R : List Nat} (h : Inv m R) {c : Bool} {p q : Option Nat} (hp : ∀ a, p = some a → Held m R a)
    (hq : ∀ a, q = some a → Held m R a) : ∃ b, copyable m c p q = .ok b := by
  cases p with
  | none => exact ⟨false, rfl⟩
  | some a =>
    cases q with
    | none => exact ⟨false, rfl⟩
    | some b =>
      obtain ⟨oa, ha⟩ := h.alive (hp a rfl)
      obtain ⟨ob, hb⟩ := h.alive (hq b rfl)
      obtain ⟨v, hv⟩ := ofVars_ok h ha
      obtain ⟨w, hw⟩ := ofVars_ok h hb
      unfold copyable
      simp only [look_some ha, Outcome.bind_ok]
      cases oa.body with
      | nums => exact ⟨false, rfl⟩
      | vars _ => exact ⟨false, rfl⟩
      | view t =>
        simp only [hv, hw, Outcome.bind_ok]
        exact ⟨_, rfl⟩

/-- Position `i` of the array of vars that is `a`, or that `a` is a view of. -/
def Elem (m : Objs) (a t : Nat) (es : List (Option Nat)) : Prop :=
  ∃ o, m[a]? = some (some o) ∧ ((t = a ∧ o.body = .vars es) ∨ (o.body = .view t ∧ ∃ o', m[t]? = some (some o') ∧ o'.body = .vars es))

/-- The array, or that viewed, is one of numbers. -/
def Numbers (m : Objs) (a t : Nat) : Prop :=
  ∃ o, m[a]? = some (some o) ∧ ((t = a ∧ o.body = .nums) ∨ (o.body = .view t ∧ ∃ o', m[t]? = some (some o') ∧ ∀ es, o'.body ≠ .vars es))

theorem Elem.root {m : Objs} {a t : Nat} {es : List (Option Nat)} (h : Elem m a t es) : Life.root m a = .ok t := by
  obtain ⟨o, ho, h | h⟩ := h
  · simp only [Life.root, look_some ho, Outcome.bind_ok, h.2, h.1]
  · simp only [Life.root, look_some ho, Outcome.bind_ok, h.1]

theorem Elem.look {m : Objs} {a t : Nat} {es : List (Option Nat)} (h : Elem m a t es) : ∃ o, m[t]? = some (some o) ∧ o.body = .vars es := by
  obtain ⟨o, ho, h | h⟩ := h
  · rw [h.1]; exact ⟨o, ho, h.2⟩
  · exact h.2

theorem Elem.ofVars {m : Objs} {a t : Nat} {es : List (Option Nat)} (h : Elem m a t es) : Life.ofVars m a = .ok true := by
  obtain ⟨o, ho, hb⟩ := h.look
  simp only [Life.ofVars, h.root, Outcome.bind_ok, look_some ho, hb]

theorem Numbers.root {m : Objs} {a t : Nat} (h : Numbers m a t) : Life.root m a = .ok t := by
  obtain ⟨o, ho, h | h⟩ := h
  · simp only [Life.root, look_some ho, Outcome.bind_ok, h.2, h.1]
  · simp only [Life.root, look_some ho, Outcome.bind_ok, h.1]

theorem Numbers.ofVars {m : Objs} {a t : Nat} (h : Numbers m a t) : Life.ofVars m a = .ok false := by
  have hr := h.root
  obtain ⟨o, ho, h | ⟨-, o', ho', hn⟩⟩ := h
  · simp only [Life.ofVars, hr, Outcome.bind_ok, h.1, look_some ho, h.2]
  · simp only [Life.ofVars, hr, Outcome.bind_ok, look_some ho']

/-- Both are kept if nothing that is held changes. -/
theorem Elem.frame {m m' : Objs} {a t : Nat} {es : List (Option Nat)} (h : Elem m a t es) (f : Frame m m') {R : List Nat} (hi : Inv m' R) (ha : Held m' R a) : Elem m' a t es := by
  obtain ⟨o, ho, h⟩ := h
  obtain ⟨o1, ho1, e1⟩ := f.body ho hi ha
  refine ⟨o1, ho1, ?_⟩
  rcases h with ⟨h1, h2⟩ | ⟨h1, o', ho', h2⟩
  · exact .inl ⟨h1, e1.trans h2⟩
  · refine .inr ⟨e1.trans h1, ?_⟩
    obtain ⟨o2, ho2, e2⟩ := f.body ho' hi (.inr (mem_cells ho1 (by rw [e1, h1]; exact List.mem_singleton.2 rfl)))
    exact ⟨o2, ho2, e2.trans h2⟩

theorem Numbers.frame {m m' : Objs} {a t : Nat} (h : Numbers m a t) (f : Frame m m') {R : List Nat} (hi : Inv m' R) (ha : Held m' R a) : Numbers m' a t := by
  obtain ⟨o, ho, hh⟩ := h
  obtain ⟨o1, ho1, eb1⟩ := f.body ho hi ha
  refine ⟨o1, ho1, ?_⟩
  rcases hh with ⟨h1, h2⟩ | ⟨h1, o', ho', h2⟩
  · exact .inl ⟨h1, eb1.trans h2⟩
  · refine .inr ⟨eb1.trans h1, ?_⟩
    obtain ⟨o2, ho2, eb2⟩ := f.body ho' hi (.inr (mem_cells ho1 (by rw [eb1, h1]; exact List.mem_singleton.2 rfl)))
    exact ⟨o2, ho2, fun es => by rw [eb2]; exact h2 es⟩

theorem Elem.held {m : Objs} {a t : Nat} {es : List (Option Nat)} (h : Elem m a t es) {R : List Nat} (ha : Held m R a) : Held m R t := by
  obtain ⟨o, ho, ⟨h, -⟩ | ⟨h, -⟩⟩ := h
  · rw [h]; exact ha
  · exact .inr (mem_cells ho (by rw [h]; exact List.mem_singleton.2 rfl))

/-- An element of an array of vars. -/
theorem Elem.elem {m : Objs} {a t i : Nat} {es : List (Option Nat)} (h : Elem m a t es) (hi : i < es.length) : Life.elem m t i = .ok es[i] ∧ ∀ b, es[i] = some b → b ∈ cells m := by
  obtain ⟨o, ho, hb⟩ := h.look
  refine ⟨?_, fun b e => mem_cells ho ?_⟩
  · simp only [Life.elem, look_some ho, Outcome.bind_ok, hb, List.getElem?_eq_getElem hi]
  · rw [hb]
    simp only [Body.kids, List.mem_reverse, List.mem_flatMap]
    exact ⟨es[i], List.getElem_mem hi, by rw [e]; simp⟩

/-- What the variables hold. -/
def ptrs (vs : List (Option Nat)) : List Nat := vs.flatMap Option.toList

/-- The counts of a state, with further references `T`. -/
def Good (s : State) (T : List Nat) : Prop := Inv s.objs (ptrs s.vars ++ T)

/-- There is a var in this place. -/
def Slot.Valid (s : State) (T : List Nat) : Slot → Prop
  | .var x => x < s.vars.length
  | .elem t i => ∃ a ∈ T, ∃ es, Elem s.objs a t es ∧ i < es.length

theorem mem_ptrs {vs : List (Option Nat)} {x a : Nat} (h : vs[x]? = some (some a)) : a ∈ ptrs vs := by
  unfold ptrs
  rw [List.mem_flatMap]
  exact ⟨some a, List.mem_of_getElem? h, by simp⟩

theorem read_ok {s : State} {T : List Nat} {sl : Slot} (hv : Slot.Valid s T sl) : ∃ old, read s sl = .ok old ∧ ∀ a, old = some a → Held s.objs (ptrs s.vars ++ T) a := by
  cases sl with
  | var x =>
    have hv : x < s.vars.length := hv
    refine ⟨s.vars[x], ?_, fun a ha => .inl (List.mem_append_left _ (mem_ptrs (x := x) (by rw [List.getElem?_eq_getElem hv, ha])))⟩
    simp only [Life.read, List.getElem?_eq_getElem hv]
  | elem a i =>
    obtain ⟨a', ha, es, he, hi⟩ := hv
    obtain ⟨o, ho, hb⟩ := he.look
    refine ⟨es[i], ?_, fun b hb' => .inr (mem_cells ho ?_)⟩
    · simp only [Life.read, elem, look_some ho, Outcome.bind_ok, hb, List.getElem?_eq_getElem hi]
    · rw [hb]
      simp only [Body.kids, List.mem_reverse, List.mem_flatMap]
      exact ⟨es[i], List.getElem_mem hi, by rw [hb']; simp⟩

/-- Writing a var exchanges one reference for another. -/
theorem write_ok {s : State} {T : List Nat} {sl : Slot} {old : Option Nat} (p : Option Nat) (hv : Slot.Valid s T sl) (hr : read s sl = .ok old) {U : List Nat}
    (h : Good s (p.toList ++ U)) :
    ∃ s', write s p sl = .ok s' ∧ Good s' (old.toList ++ U) ∧ s'.vars.length = s.vars.length ∧ s'.lost = s.lost ∧ s'.objs.length = s.objs.length ∧
      (∀ (b : Nat) (o' : Obj), s'.objs[b]? = some (some o') → ∃ o, s.objs[b]? = some (some o) ∧ (o'.body = o.body ∨ ∃ i es, sl = .elem b i ∧ o.body = .vars es ∧ o'.body = .vars (es.set i p))) := by
  cases sl with
  | var x =>
    have hv : x < s.vars.length := hv
    have ho : s.vars[x]? = some old := by
      simp only [Life.read, List.getElem?_eq_getElem hv] at hr
      cases hr
      exact List.getElem?_eq_getElem hv
    refine ⟨_, rfl, ?_, by simp, rfl, rfl, fun b o' hb => ⟨o', hb, .inl rfl⟩⟩
    refine Inv.perm h fun b => ?_
    have := count_set Option.toList s.vars x old p ho b
    simp only [ptrs, List.count_append]
    omega
  | elem a i =>
    obtain ⟨a', ha, es, he, hi⟩ := hv
    obtain ⟨o, ho, hb⟩ := he.look
    have hold : old = es[i] := by
      simp only [Life.read, elem, look_some ho, Outcome.bind_ok, hb, List.getElem?_eq_getElem hi] at hr
      cases hr
      rfl
    have hl := (List.getElem?_eq_some_iff.1 ho).1
    refine ⟨{ s with objs := s.objs.set a (some { o with body := .vars (es.set i p) }) }, ?_, ⟨fun b => ?_, fun b ob hob => ?_⟩, rfl, rfl, by simp, fun b o' hob => ?_⟩
    · simp only [write, look_some ho, Outcome.bind_ok, hb]
    · have e1 := h.exact b
      have e2 := cells_set ho (some { o with body := .vars (es.set i p) }) b
      have e3 := count_set Option.toList es i old p (by rw [List.getElem?_eq_getElem hi, hold]) b
      simp only [kidsOf, hb, Body.kids, List.count_reverse] at e2
      have e4 : rcOf (s.objs.set a (some { o with body := .vars (es.set i p) })) b = rcOf s.objs b := by
        rw [rcOf_set hl]
        by_cases hba : b = a
        · subst hba
          rw [if_pos rfl]
          unfold rcOf
          rw [ho]
        · rw [if_neg hba]
      simp only [List.count_append] at e1 ⊢
      omega
    · by_cases hba : b = a
      · subst hba
        rw [List.getElem?_set_self hl] at hob
        cases hob
        exact h.pos b o ho
      · rw [List.getElem?_set_ne (Ne.symm hba)] at hob
        exact h.pos b ob hob
    · by_cases hba : b = a
      · subst hba
        rw [List.getElem?_set_self hl] at hob
        cases hob
        exact ⟨o, ho, .inr ⟨i, es, rfl, hb, rfl⟩⟩
      · rw [List.getElem?_set_ne (Ne.symm hba)] at hob
        exact ⟨o', hob, .inl rfl⟩

/-- Bodies after an assignment to `sl`. -/
def Changed (sl : Slot) (p : Option Nat) (m m' : Objs) : Prop := m.length ≤ m'.length ∧
  ∀ (b : Nat) (o' : Obj), b < m.length → m'[b]? = some (some o') → ∃ o, m[b]? = some (some o) ∧ (o'.body = o.body ∨ ∃ i es, sl = .elem b i ∧ o.body = .vars es ∧ o'.body = .vars (es.set i p))

theorem assign_ok {s : State} {T : List Nat} {sl : Slot} {p : Option Nat} (c : Bool) (hv : Slot.Valid s T sl) (h : Good s (p.toList ++ T)) :
    ∃ s', assign sl p c s = .ok s' ∧ Good s' T ∧ s'.vars.length = s.vars.length ∧ s'.lost = s.lost ∧ Changed sl p s.objs s'.objs := by
  obtain ⟨old, hr, hold⟩ := read_ok hv
  have hold' : ∀ a, old = some a → Held s.objs (ptrs s.vars ++ (p.toList ++ T)) a := fun a ha => by
    rcases hold a ha with h | h
    · exact .inl (by simp only [List.mem_append] at h ⊢; tauto)
    · exact .inr h
  have hp : ∀ a, p = some a → Held s.objs (ptrs s.vars ++ (p.toList ++ T)) a := fun a ha => .inl (by rw [ha]; simp)
  obtain ⟨b, hb⟩ := copyable_ok h (c := c) hold' hp
  unfold assign
  rw [hr]
  simp only [Outcome.bind_ok, hb]
  cases b with
  | true =>
    obtain ⟨m', e, i, f⟩ := detachV_ok (m := s.objs) (p := p) (R := ptrs s.vars ++ T) (h.perm fun a => by simp only [List.count_append]; omega)
    refine ⟨{ s with objs := m' }, ?_, i, rfl, rfl, f.1, fun b o' hb ho' => ?_⟩
    · simp only [if_true, e, Outcome.bind_ok]
    · obtain ⟨o, h1, h2⟩ := f.2 b o' hb ho'
      exact ⟨o, h1, .inl h2.symm⟩
  | false =>
    obtain ⟨s1, e1, g1, l1, k1, n1, f1⟩ := write_ok p hv hr h
    have hp1 : ∀ a, p = some a → Held s1.objs (ptrs s1.vars ++ (old.toList ++ T)) a := by
      intro a ha
      obtain ⟨o, ho⟩ := h.alive (hp a ha)
      -- it is held where it has been written
      cases sl with
      | var x =>
        cases e1
        refine .inl (List.mem_append_left _ (mem_ptrs (x := x) ?_))
        simp only
        rw [List.getElem?_set_self hv, ha]
      | elem a' i =>
        obtain ⟨a'', ha'', es, he, hi⟩ := hv
        obtain ⟨o', ho', hb'⟩ := he.look
        simp only [write, look_some ho', Outcome.bind_ok, hb'] at e1
        cases e1
        refine .inr (mem_cells (a := a') (o := { o' with body := .vars (es.set i p) }) (List.getElem?_set_self (List.getElem?_eq_some_iff.1 ho').1) ?_)
        simp only [Body.kids, List.mem_reverse, List.mem_flatMap]
        exact ⟨p, List.mem_iff_getElem?.2 ⟨i, List.getElem?_set_self hi⟩, by rw [ha]; simp⟩
    obtain ⟨m1, e2, i2, f2, -⟩ := attachV_ok g1 hp1
    obtain ⟨m2, e3, i3, f3⟩ := detachV_ok (m := m1) (p := old) (R := p.toList ++ (ptrs s1.vars ++ T)) (i2.perm fun a => by simp only [List.count_append]; omega)
    -- the var is still there
    have hr2 : ∃ q, Life.read { s1 with objs := m2 } sl = .ok q := by
      cases sl with
      | var x =>
        have : x < s1.vars.length := by rw [l1]; exact hv
        exact ⟨s1.vars[x], by simp only [Life.read, List.getElem?_eq_getElem this]⟩
      | elem t i =>
        obtain ⟨a, ha, es, he, hi⟩ := hv
        have he1 : Elem s1.objs a t (es.set i p) := by
          obtain ⟨ot, hot, hbt⟩ := he.look
          simp only [write, look_some hot, Outcome.bind_ok, hbt] at e1
          cases e1
          have hlt := (List.getElem?_eq_some_iff.1 hot).1
          obtain ⟨o, ho, ⟨h1, h2⟩ | ⟨h1, h2⟩⟩ := he
          · subst h1
            exact ⟨_, List.getElem?_set_self hlt, .inl ⟨rfl, rfl⟩⟩
          · have hne : t ≠ a := by
              intro hta
              subst hta
              cases hot.symm.trans ho
              rw [hbt] at h1
              cases h1
            refine ⟨o, ?_, .inr ⟨h1, _, List.getElem?_set_self hlt, rfl⟩⟩
            simp only
            rw [List.getElem?_set_ne hne]
            exact ho
        have he2 := he1.frame (f2.trans f3) i3 (.inl (by simp [ha]))
        exact ⟨_, (he2.elem (i := i) (by simpa using hi)).1⟩
    obtain ⟨q, hr2⟩ := hr2
    obtain ⟨m3, e4, i4, f4⟩ := detachV_ok (m := m2) (p := p) (R := ptrs s1.vars ++ T) i3
    refine ⟨{ s1 with objs := m3 }, ?_, i4, l1, k1, ?_⟩
    · simp only [Bool.false_eq_true, if_false, e1, e2, e3, hr2, e4, Outcome.bind_ok]
    · have f := (f2.trans f3).trans f4
      refine ⟨by rw [← n1]; exact f.1, fun b o' hb ho' => ?_⟩
      obtain ⟨o1, h1, h2⟩ := f.2 b o' (by rw [n1]; exact hb) ho'
      obtain ⟨o, h3, h4⟩ := f1 b o1 h1
      refine ⟨o, h3, ?_⟩
      rw [← h2]
      exact h4

/-- What an element holds after an assignment that does not copy. -/
theorem assign_elem {s : State} {T : List Nat} {a t i : Nat} {es : List (Option Nat)} {p : Option Nat} (c : Bool) (ha : a ∈ T) (he : Elem s.objs a t es) (hi : i < es.length)
    (hc : copyable s.objs c es[i] p = .ok false) (h : Good s (p.toList ++ T)) :
    ∃ s', assign (.elem t i) p c s = .ok s' ∧ Good s' T ∧ s'.vars = s.vars ∧ Elem s'.objs a t (es.set i p) := by
  obtain ⟨ot, hot, hbt⟩ := he.look
  have hlt := (List.getElem?_eq_some_iff.1 hot).1
  have hr : Life.read s (.elem t i) = .ok es[i] := by simp only [Life.read, elem, look_some hot, Outcome.bind_ok, hbt, List.getElem?_eq_getElem hi]
  have hv : Slot.Valid s T (.elem t i) := ⟨a, ha, es, he, hi⟩
  obtain ⟨s1, e1, g1, l1, k1, n1, f1⟩ := write_ok p hv hr h
  have hs1 : s1 = { s with objs := s.objs.set t (some { ot with body := .vars (es.set i p) }) } := by
    simp only [write, look_some hot, Outcome.bind_ok, hbt] at e1
    cases e1
    rfl
  have he1 : Elem s1.objs a t (es.set i p) := by
    rw [hs1]
    obtain ⟨o, ho, ⟨h1, h2⟩ | ⟨h1, h2⟩⟩ := he
    · subst h1
      exact ⟨_, List.getElem?_set_self hlt, .inl ⟨rfl, rfl⟩⟩
    · have hne : t ≠ a := by
        intro hta
        subst hta
        cases hot.symm.trans ho
        rw [hbt] at h1
        cases h1
      refine ⟨o, ?_, .inr ⟨h1, _, List.getElem?_set_self hlt, rfl⟩⟩
      simp only
      rw [List.getElem?_set_ne hne]
      exact ho
  have hp1 : ∀ b, p = some b → Held s1.objs (ptrs s1.vars ++ (es[i].toList ++ T)) b := by
    intro b hb
    refine .inr (mem_cells (a := t) (o := { ot with body := .vars (es.set i p) }) (by rw [hs1]; exact List.getElem?_set_self hlt) ?_)
    simp only [Body.kids, List.mem_reverse, List.mem_flatMap]
    exact ⟨p, List.mem_iff_getElem?.2 ⟨i, List.getElem?_set_self hi⟩, by rw [hb]; simp⟩
  obtain ⟨m1, e2, i2, f2, -⟩ := attachV_ok g1 hp1
  obtain ⟨m2, e3, i3, f3⟩ := detachV_ok (m := m1) (p := es[i]) (R := p.toList ++ (ptrs s1.vars ++ T)) (i2.perm fun a => by simp only [List.count_append]; omega)
  have he2 := he1.frame (f2.trans f3) i3 (.inl (by simp [ha]))
  obtain ⟨m3, e4, i4, f4⟩ := detachV_ok (m := m2) (p := p) (R := ptrs s1.vars ++ T) i3
  have he3 := he2.frame f4 i4 (.inl (by simp [ha]))
  have hr2 : Life.read { s1 with objs := m2 } (.elem t i) = .ok p := by
    have := (he2.elem (i := i) (by simpa using hi)).1
    rw [List.getElem_set_self] at this
    exact this
  refine ⟨{ s1 with objs := m3 }, ?_, i4, by rw [hs1], he3⟩
  unfold assign
  simp only [hr, hc, Outcome.bind_ok, Bool.false_eq_true, if_false, e1, e2, e3, hr2, e4]

end Libube.LifeInv

namespace Libube.LifeInv

open Life

theorem alloc_inv {m : Objs} {R : List Nat} {b : Body} (h : Inv m (b.kids ++ R)) : Inv (alloc b m).2 (m.length :: R) ∧ Frame m (alloc b m).2 := by
  refine ⟨⟨fun a => ?_, fun a o ho => ?_⟩, by simp [alloc], fun c o' hc ho => ?_⟩
  · have h1 := h.exact a
    have hnew : (cells m).count m.length + (b.kids ++ R).count m.length = 0 := by
      have := h.exact m.length
      have h0 : rcOf m m.length = 0 := by unfold rcOf; rw [List.getElem?_eq_none (Nat.le_refl _)]
      omega
    have hc : (cells (m ++ [some ⟨1, b⟩])).count a = (cells m).count a + b.kids.count a := by
      simp [cells, kidsOf]
    simp only [alloc]
    rw [hc, List.count_cons]
    simp only [List.count_append] at h1 hnew
    unfold rcOf at h1 ⊢
    rcases Nat.lt_trichotomy a m.length with hlt | heq | hgt
    · have : ¬ (m.length == a) = true := by simp; omega
      rw [List.getElem?_append_left hlt, if_neg this]
      omega
    · subst heq
      simp only [List.getElem?_concat_length, beq_self_eq_true, if_true]
      omega
    · have : ¬ (m.length == a) = true := by simp; omega
      rw [List.getElem?_eq_none (by simp; omega), if_neg this]
      rw [List.getElem?_eq_none (by omega)] at h1
      omega
  · simp only [alloc] at ho
    rcases Nat.lt_or_ge a m.length with hlt | hge
    · rw [List.getElem?_append_left hlt] at ho
      exact h.pos a o ho
    · rw [List.getElem?_append_right hge] at ho
      have : a - m.length = 0 := by
        have := (List.getElem?_eq_some_iff.1 ho).1
        simp at this
        omega
      rw [this] at ho
      cases ho
      exact Nat.one_pos
  · simp only [alloc] at ho
    rw [List.getElem?_append_left hc] at ho
    exact ⟨o', ho, rfl⟩

theorem attachAll_ok : ∀ (as : List Nat) {m : Objs} {R : List Nat}, Inv m R → (∀ a ∈ as, Held m R a) → ∃ m', attachAll as m = .ok m' ∧ Inv m' (as ++ R) ∧ Frame m m'
  | [], m, _, h, _ => ⟨m, rfl, h, .refl m⟩
  | a :: as, m, R, h, ha => by
    obtain ⟨m1, e1, i1, f1, c1⟩ := attach_ok h (ha a (by simp))
    obtain ⟨m2, e2, i2, f2⟩ := attachAll_ok as i1 (fun b hb => by
      rcases ha b (by simp [hb]) with h | h
      · exact .inl (by simp [h])
      · exact .inr ((c1 b).2 h))
    refine ⟨m2, ?_, i2.perm fun b => ?_, f1.trans f2⟩
    · simp only [attachAll, e1, e2, Outcome.bind_ok]
    · simp only [List.count_append, List.count_cons, List.cons_append]; omega

theorem copyHeap_ok {m : Objs} {R : List Nat} (h : Inv m R) {a : Nat} {o : Obj} (ho : m[a]? = some (some o)) :
    ∃ m', copyHeap a m = .ok (m.length, m') ∧ Inv m' (m.length :: R) ∧ Frame m m' ∧ ∃ o', m'[m.length]? = some (some o') ∧ o'.body = o.body := by
  obtain ⟨m1, e1, i1, f1⟩ := attachAll_ok o.body.kids h (fun c hc => .inr (mem_cells ho hc))
  have hl : m1.length = m.length := by
    have : ∀ (as : List Nat) (m m1 : Objs), attachAll as m = .ok m1 → m1.length = m.length := by
      intro as
      induction as with
      | nil => intro m m1 e; cases e; rfl
      | cons a as ih =>
        intro m m1 e
        simp only [attachAll] at e
        cases ho : look m a with
        | ok o =>
          simp only [attach, ho, Outcome.bind_ok] at e
          rw [ih _ _ e]
          simp
        | _ => simp [attach, ho] at e
    exact this _ _ _ e1
  obtain ⟨i2, f2⟩ := alloc_inv i1
  refine ⟨(alloc o.body m1).2, ?_, ?_, f1.trans f2, ⟨1, o.body⟩, ?_, rfl⟩
  · unfold copyHeap
    simp only [look_some ho, e1, Outcome.bind_ok]
    rw [← hl]
    rfl
  · rw [← hl]; exact i2
  · rw [← hl]; simp [alloc]

end Libube.LifeInv

namespace Libube.LifeInv

open Life

theorem var_ok {s : State} {x : Nat} (hx : x < s.vars.length) : Life.var s x = .ok s.vars[x] := by
  simp only [Life.var, Life.read, List.getElem?_eq_getElem hx]

theorem var_some {s : State} {x : Nat} {p : Option Nat} (h : s.vars[x]? = some p) : Life.var s x = .ok p := by
  simp only [Life.var, Life.read, h]

theorem held_var {s : State} {T : List Nat} {x a : Nat} (h : s.vars[x]? = some (some a)) (m : Objs) : Held m (ptrs s.vars ++ T) a :=
  .inl (List.mem_append_left _ (mem_ptrs h))

theorem newVar_ok {s : State} (h : Good s []) {x : Nat} (hx : x < s.vars.length) {b : Body} (hb : b.kids = []) (c : Bool) :
    ∃ s', assign (.var x) (some s.objs.length) c { s with objs := (alloc b s.objs).2 } = .ok s' ∧ Good s' [] ∧ s'.vars.length = s.vars.length ∧ s'.lost = s.lost := by
  obtain ⟨i, -⟩ := alloc_inv (m := s.objs) (b := b) (R := ptrs s.vars ++ []) (by rw [hb]; exact h)
  obtain ⟨s', e, g, l, k, -⟩ := assign_ok (s := { s with objs := (alloc b s.objs).2 }) (T := []) (sl := .var x) (p := some s.objs.length) c hx
    (i.perm fun a => by simp only [Option.toList, List.count_append, List.count_cons, List.count_nil, List.cons_append, List.nil_append]; omega)
  exact ⟨s', e, g, l, k⟩

theorem view_ok {s : State} (h : Good s []) {x y : Nat} (hx : x < s.vars.length) (hy : y < s.vars.length) (f c : Bool) :
    ∃ s', view x y f c s = .ok s' ∧ Good s' [] ∧ s'.vars.length = s.vars.length ∧ (f = true → s'.lost = s.lost) := by
  unfold view
  rw [var_ok hy]
  simp only [Outcome.bind_ok]
  cases hv : s.vars[y] with
  | none => exact ⟨s, rfl, h, rfl, fun _ => rfl⟩
  | some a =>
    have hy' : s.vars[y]? = some (some a) := by rw [List.getElem?_eq_getElem hy, hv]
    obtain ⟨o, ho⟩ := h.alive (held_var hy' s.objs)
    obtain ⟨t, ht, -, hh⟩ := root_ok h ho
    obtain ⟨m1, e1, i1, f1, -⟩ := attach_ok h hh
    simp only [ht, e1, Outcome.bind_ok]
    cases f with
    | true =>
      obtain ⟨i2, -⟩ := alloc_inv (m := m1) (b := .view t) (R := ptrs s.vars ++ []) i1
      obtain ⟨s', e, g, l, k, -⟩ := assign_ok (s := { s with objs := (alloc (.view t) m1).2 }) (T := []) (sl := .var x) (p := some m1.length) c hx
        (i2.perm fun a => by simp only [Option.toList, List.count_append, List.count_cons, List.count_nil, List.cons_append, List.nil_append]; omega)
      exact ⟨s', e, g, l, fun _ => k⟩
    | false =>
      obtain ⟨m2, e2, i2, -⟩ := detach_ok i1
      simp only [Bool.false_eq_true, if_false, e2, Outcome.bind_ok]
      exact ⟨_, rfl, i2, rfl, fun h => absurd h (by simp)⟩

theorem copy_ok {s : State} (h : Good s []) {x y : Nat} (hx : x < s.vars.length) (hy : y < s.vars.length) (k c : Bool) :
    ∃ s', copy x y k c s = .ok s' ∧ Good s' [] ∧ s'.vars.length = s.vars.length ∧ (k = true → s'.lost = s.lost) := by
  unfold copy
  rw [var_ok hy]
  simp only [Outcome.bind_ok]
  cases hv : s.vars[y] with
  | none =>
    obtain ⟨s', e, g, l, k, -⟩ := assign_ok (s := s) (T := []) (sl := .var x) (p := none) c hx h
    exact ⟨s', e, g, l, fun _ => k⟩
  | some a =>
    have hy' : s.vars[y]? = some (some a) := by rw [List.getElem?_eq_getElem hy, hv]
    obtain ⟨o, ho⟩ := h.alive (held_var hy' s.objs)
    obtain ⟨v, hvs⟩ := ofVars_ok h ho
    simp only [look_some ho, Outcome.bind_ok]
    have plain : ∃ s', (if !k && !v then .ok { s with lost := s.lost + 1 } else do
          let (h, m) ← copyHeap a s.objs
          assign (.var x) (some h) c { s with objs := m } : Outcome State) = .ok s' ∧ Good s' [] ∧ s'.vars.length = s.vars.length ∧ (k = true → s'.lost = s.lost) := by
      by_cases hkv : (!k && !v) = true
      · rw [if_pos hkv]
        refine ⟨_, rfl, h, rfl, fun hk => ?_⟩
        rw [hk] at hkv
        simp at hkv
      · rw [if_neg hkv]
        obtain ⟨m1, e1, i1, f1, -⟩ := copyHeap_ok h ho
        obtain ⟨s', e, g, l, k, -⟩ := assign_ok (s := { s with objs := m1 }) (T := []) (sl := .var x) (p := some s.objs.length) c hx
          (i1.perm fun a => by simp only [Option.toList, List.count_append, List.count_cons, List.count_nil, List.cons_append, List.nil_append]; omega)
        exact ⟨s', by simp only [e1, Outcome.bind_ok, e], g, l, fun _ => k⟩
    cases hb : o.body with
    | nums => simpa only [hb, hvs, Outcome.bind_ok] using plain
    | vars es => simpa only [hb, hvs, Outcome.bind_ok] using plain
    | view t =>
      simp only [hvs, Outcome.bind_ok]
      by_cases hkv : (!k && !v) = true
      · rw [if_pos hkv]
        refine ⟨_, rfl, h, rfl, fun hk => ?_⟩
        rw [hk] at hkv
        simp at hkv
      · rw [if_neg hkv]
        obtain ⟨ot, hot⟩ := h.alive (a := t) (.inr (mem_cells ho (by rw [hb]; exact List.mem_singleton.2 rfl)))
        obtain ⟨m1, e1, i1, f1, -⟩ := copyHeap_ok h hot
        obtain ⟨i2, -⟩ := alloc_inv (m := m1) (b := .view s.objs.length) (R := ptrs s.vars ++ []) i1
        obtain ⟨s', e, g, l, k, -⟩ := assign_ok (s := { s with objs := (alloc (.view s.objs.length) m1).2 }) (T := []) (sl := .var x) (p := some m1.length) c hx
          (i2.perm fun a => by simp only [Option.toList, List.count_append, List.count_cons, List.count_nil, List.cons_append, List.nil_append]; omega)
        refine ⟨s', ?_, g, l, fun _ => k⟩
        simp only [e1, Outcome.bind_ok]
        exact e

theorem put_ok {s : State} (h : Good s []) {x i y a t : Nat} {es : List (Option Nat)} (hx : s.vars[x]? = some (some a)) (he : Elem s.objs a t es) (hi : i < es.length)
    (hy : y < s.vars.length) (c : Bool) : ∃ s', put x i y c s = .ok s' ∧ Good s' [] ∧ s'.vars.length = s.vars.length ∧ s'.lost = s.lost := by
  unfold put
  obtain ⟨m1, e1, i1, f1, c1⟩ := attach_ok h (held_var hx s.objs)
  have hp : ∀ b, s.vars[y] = some b → b ∈ ptrs s.vars := fun b hb => mem_ptrs (x := y) (by rw [List.getElem?_eq_getElem hy, hb])
  obtain ⟨m2, e2, i2, f2, c2⟩ := attachV_ok (p := s.vars[y]) i1 (fun b hb => .inl (by simp [hp b hb]))
  obtain ⟨m3, e3, i3, f3, c3⟩ := attachV_ok (p := s.vars[y]) i2 (fun b hb => .inl (by simp [hp b hb]))
  have ha3 : Held m3 (s.vars[y].toList ++ (s.vars[y].toList ++ a :: (ptrs s.vars ++ []))) a := .inl (by simp)
  have he3 := he.frame ((f1.trans f2).trans f3) i3 ha3
  obtain ⟨s', e, g, l, k, -⟩ := assign_ok (s := { s with objs := m3 }) (T := s.vars[y].toList ++ [a]) (sl := .elem t i) (p := s.vars[y]) c
    ⟨a, by simp, es, he3, hi⟩ (i3.perm fun b => by simp only [List.count_append, List.count_cons, List.count_nil]; omega)
  obtain ⟨m4, e4, i4, f4⟩ := detachV_ok (m := s'.objs) (p := s.vars[y]) (R := a :: (ptrs s'.vars ++ []))
    (g.perm fun b => by simp only [List.count_append, List.count_cons, List.count_nil]; omega)
  obtain ⟨m5, e5, i5, f5⟩ := detach_ok i4
  refine ⟨{ s' with objs := m5 }, ?_, i5, l, k⟩
  simp only [var_some hx, he.root, e1, var_ok hy, e2, e3, e, e4, e5, Outcome.bind_ok]

theorem put_elem {s : State} (h : Good s []) {x i y a t : Nat} {es : List (Option Nat)} (hx : s.vars[x]? = some (some a)) (he : Elem s.objs a t es) (hi : i < es.length)
    (hy : y < s.vars.length) (c : Bool)
    (hc : c = false ∨ ∀ (b : Nat) (o : Obj) (t : Nat), es[i] = some b → s.objs[b]? = some (some o) → o.body ≠ .view t) :
    ∃ s', put x i y c s = .ok s' ∧ Good s' [] ∧ s'.vars = s.vars ∧ Elem s'.objs a t (es.set i s.vars[y]) := by
  unfold put
  obtain ⟨m1, e1, i1, f1, c1⟩ := attach_ok h (held_var hx s.objs)
  have hp : ∀ b, s.vars[y] = some b → b ∈ ptrs s.vars := fun b hb => mem_ptrs (x := y) (by rw [List.getElem?_eq_getElem hy, hb])
  obtain ⟨m2, e2, i2, f2, c2⟩ := attachV_ok (p := s.vars[y]) i1 (fun b hb => .inl (by simp [hp b hb]))
  obtain ⟨m3, e3, i3, f3, c3⟩ := attachV_ok (p := s.vars[y]) i2 (fun b hb => .inl (by simp [hp b hb]))
  have ha3 : Held m3 (s.vars[y].toList ++ (s.vars[y].toList ++ a :: (ptrs s.vars ++ []))) a := .inl (by simp)
  have he3 := he.frame ((f1.trans f2).trans f3) i3 ha3
  have hcp : copyable m3 c es[i] s.vars[y] = .ok false := by
    obtain ⟨b, hb⟩ := copyable_ok (c := c) (p := es[i]) (q := s.vars[y]) i3 (fun b hb => .inr ((he3.elem hi).2 b hb)) (fun b hb => .inl (by simp [hp b hb]))
    cases b with
    | false => exact hb
    | true =>
      exfalso
      unfold copyable at hb
      split at hb
      · rename_i b q hbe hq
        rcases hc with rfl | hc
        · obtain ⟨o, ho⟩ := i3.alive (a := b) (.inr ((he3.elem hi).2 b hbe))
          simp only [look_some ho, Outcome.bind_ok] at hb
          split at hb
          · cases h1 : ofVars m3 b <;> rw [h1] at hb <;> try cases hb
            cases h2 : ofVars m3 q <;> rw [h2] at hb <;> cases hb
          · cases hb
        · obtain ⟨o, ho⟩ := i3.alive (a := b) (.inr ((he3.elem hi).2 b hbe))
          obtain ⟨ob, hob⟩ := h.alive (a := b) (.inr ((he.elem hi).2 b hbe))
          obtain ⟨o2, ho2, eb⟩ := ((f1.trans f2).trans f3).2 b o (List.getElem?_eq_some_iff.1 hob).1 ho
          simp only [look_some ho, Outcome.bind_ok] at hb
          split at hb
          · rename_i u hu
            exact hc b o2 u hbe ho2 (by rw [eb, hu])
          · cases hb
      · cases hb
  obtain ⟨s', e, g, hv, he'⟩ := assign_elem (s := { s with objs := m3 }) (T := s.vars[y].toList ++ [a]) (a := a) (t := t) (i := i) (p := s.vars[y]) c
    (by simp) he3 hi hcp (i3.perm fun b => by simp only [List.count_append, List.count_cons, List.count_nil]; omega)
  obtain ⟨m4, e4, i4, f4⟩ := detachV_ok (m := s'.objs) (p := s.vars[y]) (R := a :: (ptrs s'.vars ++ []))
    (g.perm fun b => by simp only [List.count_append, List.count_cons, List.count_nil]; omega)
  obtain ⟨m5, e5, i5, f5⟩ := detach_ok i4
  have he5 := he'.frame (f4.trans f5) i5 (.inl (by rw [hv]; have := mem_ptrs hx; simp [this]))
  refine ⟨{ s' with objs := m5 }, ?_, i5, hv, he5⟩
  simp only [var_some hx, he.root, e1, var_ok hy, e2, e3, e, e4, e5, Outcome.bind_ok]

theorem bind_ok_inv {β γ : Type} {x : Outcome β} {f : β → Outcome γ} {b : γ} (h : (x >>= f) = .ok b) : ∃ a, x = .ok a ∧ f a = .ok b := by
  cases x with
  | ok a => exact ⟨a, rfl, h⟩
  | _ => cases h

theorem look_inv {m : Objs} {a : Nat} {o : Obj} (h : look m a = .ok o) : m[a]? = some (some o) := by
  unfold look at h
  split at h
  · cases h; assumption
  · cases h

/-- If it is not a view, or of another shape, the variable holds what has been assigned. -/
theorem assign_holds {s s' : State} {x : Nat} {p : Option Nat} {c : Bool} (h : assign (.var x) p c s = .ok s')
    (hc : c = false ∨ ∀ (a : Nat) (o : Obj) (t : Nat), s.vars[x]? = some (some a) → s.objs[a]? = some (some o) → o.body ≠ .view t) : s'.vars = s.vars.set x p := by
  obtain ⟨old, hr, h⟩ := bind_ok_inv h
  obtain ⟨b, hb, h⟩ := bind_ok_inv h
  cases b with
  | true =>
    exfalso
    unfold copyable at hb
    split at hb
    · obtain ⟨o, ho, hb⟩ := bind_ok_inv hb
      split at hb
      · rename_i t hob
        rcases hc with hc | hc
        · obtain ⟨v, -, hb⟩ := bind_ok_inv hb
          obtain ⟨w, -, hb⟩ := bind_ok_inv hb
          rw [hc] at hb
          cases hb
        · refine hc _ o t ?_ (look_inv ho) hob
          simp only [Life.read] at hr
          split at hr
          · rename_i hv
            cases hr
            exact hv
          · cases hr
      · cases hb
    · cases hb
  | false =>
    obtain ⟨s1, e1, h⟩ := bind_ok_inv h
    obtain ⟨m1, e2, h⟩ := bind_ok_inv h
    obtain ⟨m2, e3, h⟩ := bind_ok_inv h
    obtain ⟨q, -, h⟩ := bind_ok_inv h
    obtain ⟨m3, e4, h⟩ := bind_ok_inv h
    cases h
    cases e1
    rfl

/-- What `x = y[i]` reads: a var, or a number. -/
def Reads (m : Objs) (a i : Nat) : Prop := (∃ t es, Elem m a t es ∧ i < es.length) ∨ ∃ t, Numbers m a t

theorem get_ok {s : State} (h : Good s []) {x y i a : Nat} (hx : x < s.vars.length) (hy : s.vars[y]? = some (some a)) (hr : Reads s.objs a i) (c d : Bool) :
    ∃ s', Life.get x y i c d s = .ok s' ∧ Good s' [] ∧ s'.vars.length = s.vars.length ∧ s'.lost = s.lost ∧
      ((c = false ∨ ∀ (b : Nat) (o : Obj) (t : Nat), s.vars[x]? = some (some b) → s.objs[b]? = some (some o) → o.body ≠ .view t) →
        (d = false ∨ ∀ (o : Obj) (t : Nat), s.objs[a]? = some (some o) → o.body ≠ .view t) →
        ∀ t es p, Elem s.objs a t es → es[i]? = some p → s'.vars = s.vars.set x p) := by
  unfold Life.get
  obtain ⟨m1, e1, i1, f1, c1⟩ := attach_ok h (held_var hy s.objs)
  have hold : ∀ b, s.vars[x] = some b → Held m1 (a :: (ptrs s.vars ++ [])) b := fun b hb => .inl (by
    have := mem_ptrs (vs := s.vars) (x := x) (a := b) (by rw [List.getElem?_eq_getElem hx, hb])
    simp [this])
  have ha1 : Held m1 (a :: (ptrs s.vars ++ [])) a := .inl (by simp)
  have hread : Life.read { s with objs := m1 } (.var x) = .ok s.vars[x] := by simp only [Life.read, List.getElem?_eq_getElem hx]
  -- `x` becomes a copy of the reference
  obtain ⟨s2, e2, g2, l2, k2, n2, b2⟩ := write_ok (s := { s with objs := m1 }) (T := []) (sl := .var x) (U := []) (some a) hx hread
    (i1.perm fun b => by simp only [Option.toList, List.count_append, List.count_cons, List.count_nil]; omega)
  have hs2 : s2 = { s with objs := m1, vars := s.vars.set x (some a) } := by cases e2; rfl
  obtain ⟨m3, e3, i3, f3, c3⟩ := attach_ok g2 (a := a) (.inl (List.mem_append_left _ (mem_ptrs (x := x) (by rw [hs2]; exact List.getElem?_set_self hx))))
  obtain ⟨m4, e4, i4, f4⟩ := detachV_ok (m := m3) (p := s.vars[x]) (R := a :: (ptrs s2.vars ++ []))
    (i3.perm fun b => by simp only [List.count_append, List.count_cons, List.count_nil]; omega)
  have f24 : Frame m1 m4 := by
    have : s2.objs = m1 := by rw [hs2]
    rw [← this]
    exact f3.trans f4
  have ha4 : Held m4 (a :: (ptrs s2.vars ++ [])) a := .inl (by simp)
  have hxs2 : x < s2.vars.length := by rw [l2]; exact hx
  -- the view in `x` may be assigned to instead
  have copied : ∃ m', detach a m1 = .ok m' ∧ Good { s with objs := m' } [] := by
    obtain ⟨m', e, i, -⟩ := detach_ok i1
    exact ⟨m', e, i⟩
  obtain ⟨m', ec, gc⟩ := copied
  rcases hr with ⟨t, es, he, hi⟩ | ⟨t, hn⟩
  · have he1 := he.frame f1 i1 ha1
    have he4 := he1.frame f24 i4 ha4
    have hat : ∃ q, arrayAt m1 a i = .ok q ∧ ∀ b, q = some b → b ∈ cells m1 := by
      obtain ⟨o, ho, ⟨h1, h2⟩ | ⟨h1, h2⟩⟩ := he1
      · subst h1
        have he1 : Elem m1 t t es := ⟨o, ho, .inl ⟨rfl, h2⟩⟩
        refine ⟨es[i], ?_, (he1.elem hi).2⟩
        simp only [arrayAt, look_some ho, Outcome.bind_ok, h2, (he1.elem hi).1]
      · exact ⟨none, by simp only [arrayAt, look_some ho, Outcome.bind_ok, h1], nofun⟩
    obtain ⟨q, hq, hqc⟩ := hat
    obtain ⟨b, hb⟩ := copyable_ok i1 (c := c) hold (q := q) (fun b hb => .inr (hqc b hb))
    obtain ⟨m5, e5, i5, f5, -⟩ := attachV_ok (p := es[i]) i4 (fun b hb => .inr ((he4.elem hi).2 b hb))
    obtain ⟨s6, e6, g6, l6, k6, -⟩ := assign_ok (s := { s2 with objs := m5 }) (T := [a]) (sl := .var x) (p := es[i]) d hxs2
      (i5.perm fun b => by simp only [List.count_append, List.count_cons, List.count_nil]; omega)
    obtain ⟨m7, e7, i7, -⟩ := detach_ok (m := s6.objs) (a := a) (R := ptrs s6.vars ++ [])
      (g6.perm fun b => by simp only [List.count_append, List.count_cons, List.count_nil]; omega)
    have hv1 : Life.var { s with objs := m1 } x = .ok s.vars[x] := hread
    simp only [var_some hy, e1, hv1, he1.ofVars, he1.root, hq, hb, Outcome.bind_ok]
    cases b with
    | true =>
      simp only [if_true, ec, Outcome.bind_ok]
      refine ⟨_, rfl, gc, rfl, rfl, fun hc _ => ?_⟩
      exfalso
      unfold copyable at hb
      split at hb
      · rename_i b q hbx
        obtain ⟨o, ho, hb⟩ := bind_ok_inv hb
        split at hb
        · rename_i u hu
          rcases hc with rfl | hc
          · obtain ⟨v, -, hb⟩ := bind_ok_inv hb
            obtain ⟨w, -, hb⟩ := bind_ok_inv hb
            cases hb
          · have hxs : s.vars[x]? = some (some b) := by rw [List.getElem?_eq_getElem hx, hbx]
            obtain ⟨ob, hob⟩ := h.alive (held_var hxs s.objs)
            obtain ⟨o2, ho2, eb⟩ := f1.2 b o (List.getElem?_eq_some_iff.1 hob).1 (look_inv ho)
            exact hc b o2 u hxs ho2 (by rw [eb, hu])
        · cases hb
      · cases hb
    | false =>
      simp only [Bool.false_eq_true, if_false, if_true, e2, e3, e4, (he4.elem hi).1, e5, e6, e7, Outcome.bind_ok]
      refine ⟨_, rfl, i7, l6.trans l2, k6.trans k2, fun _ hd t' es' p he' hp => ?_⟩
      have hes : es' = es := by
        obtain ⟨o1, h1, h2⟩ := he'.look
        obtain ⟨o2, h3, h4⟩ := he.look
        have ht : t' = t := by
          have := he'.root.symm.trans he.root
          injection this
        rw [ht] at h1
        cases h1.symm.trans h3
        rw [h2] at h4
        injection h4
      subst hes
      have hpe : p = es'[i] := by rw [List.getElem?_eq_getElem hi] at hp; cases hp; rfl
      have := assign_holds (s := { s2 with objs := m5 }) e6 (hd.imp id fun hn a' o t h1 h2 => by
        rw [hs2] at h1
        have h1 : (s.vars.set x (some a))[x]? = some (some a') := h1
        rw [List.getElem?_set_self hx] at h1
        cases h1
        obtain ⟨oa, hoa⟩ := h.alive (held_var hy s.objs)
        obtain ⟨o2, ho2, eb⟩ := ((f1.trans f24).trans f5).2 a o (List.getElem?_eq_some_iff.1 hoa).1 h2
        rw [← eb]
        exact hn o2 t ho2)
      show s6.vars = _
      rw [this, hs2, hpe]
      simp only [List.set_set]
  · have hn1 := hn.frame f1 i1 ha1
    have hv1 : Life.var { s with objs := m1 } x = .ok s.vars[x] := hread
    have hat : arrayAt m1 a i = .ok none := by
      obtain ⟨o, ho, ⟨-, h2⟩ | ⟨h1, -⟩⟩ := hn1
      · simp only [arrayAt, look_some ho, Outcome.bind_ok, h2]
      · simp only [arrayAt, look_some ho, Outcome.bind_ok, h1]
    have hc : copyable m1 c s.vars[x] none = .ok false := by cases s.vars[x] <;> rfl
    have hread4 : Life.read { s2 with objs := m4 } (.var x) = .ok (some a) := by
      simp only [Life.read]
      rw [show s2.vars[x]? = some (some a) by rw [hs2]; exact List.getElem?_set_self hx]
    obtain ⟨s5, e5, g5, l5, k5, -⟩ := write_ok (s := { s2 with objs := m4 }) (T := []) (sl := .var x) (U := [a]) none hxs2 hread4
      (i4.perm fun b => by simp only [Option.toList, List.count_append, List.count_cons, List.count_nil]; omega)
    obtain ⟨m6, e6, i6, -⟩ := detach_ok (m := s5.objs) (a := a) (R := a :: (ptrs s5.vars ++ []))
      (g5.perm fun b => by simp only [Option.toList, List.count_append, List.count_cons, List.count_nil]; omega)
    obtain ⟨m7, e7, i7, -⟩ := detach_ok i6
    simp only [var_some hy, e1, hv1, hn1.ofVars, hn1.root, hat, Bool.false_eq_true, if_false, hc, e2, e3, e4, e5, e6, e7, Outcome.bind_ok]
    refine ⟨_, rfl, i7, l5.trans l2, k5.trans k2, fun _ _ t' es p he' _ => ?_⟩
    have := he'.ofVars.symm.trans hn.ofVars
    cases this

end Libube.LifeInv

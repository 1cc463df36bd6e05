import Verif.Spec.Module
import Mathlib.Data.List.Count
import Mathlib.Data.List.Nodup

/-! # Invariant of modules -/

namespace Libube.ModuleProps

open Module ModuleSpec

/-- The libraries of the loaders that exist. -/
def libsOf (vars : List (Option Loader)) : List Nat := vars.filterMap fun x => x.map Loader.lib

/-- What holds between calls.  In the destructor of a loader it holds with the instances not yet deleted in the place of all. -/
structure Inv (s : State) : Prop where
  sound : Sound s.log
  vars : ∀ i, (∃ l, s.vars[i]? = some (some l)) ↔ Alive s.log i
  fresh : ∀ i n, Event.opened i n ∈ s.log → i < s.vars.length
  handles : ∀ n, s.handles.count n = (libsOf s.vars).count n + s.log.count (.failed n)
  inst : ∀ (i : Nat) (l : Loader), s.vars[i]? = some (some l) → l.insts.Nodup ∧ ∀ a, a ∈ l.insts ↔ Event.made i a ∈ s.log ∧ Event.freed a ∉ s.log
  heap : ∀ (i : Nat) (l : Loader) (a : Nat), s.vars[i]? = some (some l) → a ∈ l.insts → s.heap[a]? = some (some l.lib)
  made : ∀ i a, Event.made i a ∈ s.log → a < s.heap.length
  one : ∀ i j a, Event.made i a ∈ s.log → Event.made j a ∈ s.log → i = j
  gone : ∀ i a, Event.made i a ∈ s.log → Event.closed i ∈ s.log → Event.freed a ∈ s.log
  known : ∀ a, Event.freed a ∈ s.log → ∃ i, Event.made i a ∈ s.log

theorem sound_snoc {tr : List Event} {e : Event} (h : Sound tr) (he : Fine tr e) : Sound (tr ++ [e]) := by
  intro pre e' post heq
  rcases List.eq_nil_or_concat post with rfl | ⟨post, e'', rfl⟩
  · obtain ⟨rfl, h2⟩ := List.append_inj' heq rfl
    cases h2
    exact he
  · rw [List.concat_eq_append, ← List.cons_append, ← List.append_assoc] at heq
    obtain ⟨rfl, -⟩ := List.append_inj' heq rfl
    exact h _ _ _ rfl

theorem mem_libsOf {vars : List (Option Loader)} {i : Nat} {l : Loader} (h : vars[i]? = some (some l)) : l.lib ∈ libsOf vars :=
  List.mem_filterMap.2 ⟨some l, List.mem_of_getElem? h, rfl⟩

theorem Inv.handle {s : State} (h : Inv s) {i : Nat} {l : Loader} (hl : s.vars[i]? = some (some l)) : l.lib ∈ s.handles := by
  rw [← List.count_pos_iff, h.handles]
  have := List.count_pos_iff.2 (mem_libsOf hl)
  omega

theorem libsOf_set {vars : List (Option Loader)} {i : Nat} {l : Loader} {x : Option Loader} (h : vars[i]? = some (some l)) (n : Nat) :
    (libsOf vars).count n = (libsOf (vars.set i x)).count n + (if l.lib = n then 1 else 0) - (if x.map Loader.lib = some n then 1 else 0) := by
  induction vars generalizing i with
  | nil => simp at h
  | cons y ys ih =>
    cases i with
    | zero =>
      simp only [List.getElem?_cons_zero, Option.some.injEq] at h
      subst h
      cases x <;> simp [libsOf, List.filterMap_cons, List.count_cons] <;> split <;> split <;> simp_all
    | succ i =>
      have := ih (i := i) (by simpa using h)
      have hp : (if x.map Loader.lib = some n then 1 else 0) ≤ (libsOf (ys.set i x)).count n := by
        split
        · rename_i hx
          have hlt : i < ys.length := (List.getElem?_eq_some_iff.1 (show ys[i]? = some (some l) by simpa using h)).1
          obtain ⟨z, rfl, hz⟩ := Option.map_eq_some_iff.1 hx
          have := List.count_pos_iff.2 (mem_libsOf (l := z) (List.getElem?_set_self hlt))
          rw [hz] at this
          omega
        · omega
      cases y <;> simp only [libsOf, List.filterMap_cons, List.set_cons_succ, Option.map_none, Option.map_some, List.count_cons] at this hp ⊢ <;> omega

theorem getElem?_set' {vars : List (Option Loader)} {i j : Nat} {x y : Option Loader} (h : i < vars.length) :
    (vars.set i x)[j]? = some y ↔ (j = i ∧ y = x) ∨ (j ≠ i ∧ vars[j]? = some y) := by
  by_cases hj : j = i
  · subst hj
    simp [List.getElem?_set_self h, eq_comm]
  · simp [List.getElem?_set_ne (Ne.symm hj), hj]

theorem inv_used {s : State} (h : Inv s) {i : Nat} {l : Loader} {a : Nat} (hl : s.vars[i]? = some (some l)) (ha : a ∈ l.insts) : Inv { s with log := s.log ++ [.used a] } := by
  have hal := (h.vars i).1 ⟨l, hl⟩
  have hm := ((h.inst i l hl).2 a).1 ha
  refine ⟨sound_snoc h.sound ⟨i, hm.1, hal, hm.2⟩, ?_, ?_, ?_, ?_, ?_, ?_, ?_, ?_, ?_⟩
  · simpa [Alive] using h.vars
  · simpa using h.fresh
  · simpa [List.count_append] using h.handles
  · simpa using h.inst
  · simpa using h.heap
  · simpa using h.made
  · simpa using h.one
  · simpa using h.gone
  · simpa using h.known

theorem inv_failed {s : State} (h : Inv s) (n : Nat) : Inv { s with handles := n :: s.handles, log := s.log ++ [.failed n] } := by
  refine ⟨sound_snoc h.sound trivial, ?_, ?_, ?_, ?_, ?_, ?_, ?_, ?_, ?_⟩
  · simpa [Alive] using h.vars
  · simpa using h.fresh
  · intro m
    have := h.handles m
    simp only [List.count_cons, List.count_append, List.count_nil]
    by_cases hm : n = m <;> simp [hm] <;> omega
  · simpa using h.inst
  · simpa using h.heap
  · simpa using h.made
  · simpa using h.one
  · simpa using h.gone
  · simpa using h.known

theorem Inv.closed_lt {s : State} (h : Inv s) {i : Nat} (hc : Event.closed i ∈ s.log) : i < s.vars.length := by
  obtain ⟨pre, post, hp⟩ := List.append_of_mem hc
  obtain ⟨⟨⟨n, hn⟩, -⟩, -⟩ := h.sound pre _ post hp
  exact h.fresh i n (by rw [hp]; exact List.mem_append_left _ hn)

theorem Inv.made_alive {s : State} (h : Inv s) {i a : Nat} (hc : Event.made i a ∈ s.log) : i < s.vars.length := by
  obtain ⟨pre, post, hp⟩ := List.append_of_mem hc
  obtain ⟨⟨⟨n, hn⟩, -⟩, -⟩ := h.sound pre _ post hp
  exact h.fresh i n (by rw [hp]; exact List.mem_append_left _ hn)

theorem inv_opened {s : State} (h : Inv s) (n : Nat) :
    Inv { s with handles := n :: s.handles, vars := s.vars ++ [some ⟨n, []⟩], log := s.log ++ [.opened s.vars.length n] } := by
  have hg : ∀ i (x : Option Loader), (s.vars ++ [some ⟨n, []⟩])[i]? = some x ↔ s.vars[i]? = some x ∨ (i = s.vars.length ∧ x = some ⟨n, []⟩) := by
    intro i x
    rw [List.getElem?_append]
    split
    · constructor
      · exact .inl
      · rintro (h | ⟨h, -⟩)
        · exact h
        · omega
    · rw [List.getElem?_eq_none (l := s.vars) (by omega)]
      by_cases hi : i = s.vars.length
      · subst hi
        simp [eq_comm]
      · rw [List.getElem?_eq_none (by simp; omega)]
        simp [hi]
  refine ⟨sound_snoc h.sound fun m hm => absurd (h.fresh _ m hm) (by omega), ?_, ?_, ?_, ?_, ?_, ?_, ?_, ?_, ?_⟩
  · intro i
    have hv := h.vars i
    constructor
    · rintro ⟨l, hl⟩
      rcases (hg _ _).1 hl with hl | ⟨rfl, -⟩
      · obtain ⟨⟨m, hm⟩, h2⟩ := hv.1 ⟨l, hl⟩
        exact ⟨⟨m, by simp [hm]⟩, by simpa using h2⟩
      · exact ⟨⟨n, by simp⟩, by simpa using fun hc => absurd (h.closed_lt hc) (by omega)⟩
    · rintro ⟨⟨m, hm⟩, h2⟩
      simp only [List.mem_append, List.mem_singleton, Event.opened.injEq] at hm
      rcases hm with hm | ⟨rfl, -⟩
      · obtain ⟨l, hl⟩ := hv.2 ⟨⟨m, hm⟩, by simpa using h2⟩
        exact ⟨l, (hg _ _).2 (.inl hl)⟩
      · exact ⟨_, (hg _ _).2 (.inr ⟨rfl, rfl⟩)⟩
  · intro i m hm
    simp only [List.mem_append, List.mem_singleton, Event.opened.injEq] at hm
    simp only [List.length_append, List.length_singleton]
    rcases hm with hm | ⟨rfl, -⟩
    · have := h.fresh i m hm
      omega
    · omega
  · intro m
    have := h.handles m
    simp only [libsOf, List.filterMap_append, List.count_cons, List.count_append, List.count_nil, List.filterMap_cons, Option.map_some, List.filterMap_nil] at this ⊢
    by_cases hm : n = m <;> simp [hm] <;> omega
  · intro i l hl
    rcases (hg _ _).1 hl with hl | ⟨rfl, he⟩
    · simpa using h.inst i l hl
    · cases he
      refine ⟨List.nodup_nil, fun a => ?_⟩
      simp only [List.not_mem_nil, false_iff, List.mem_append, List.mem_singleton, reduceCtorEq, or_false, not_and, not_not]
      exact fun hm => absurd (h.made_alive hm) (by omega)
  · intro i l a hl ha
    rcases (hg _ _).1 hl with hl | ⟨rfl, he⟩
    · exact h.heap i l a hl ha
    · cases he
      cases ha
  · simpa using h.made
  · simpa using h.one
  · simpa using h.gone
  · simpa using h.known

theorem inv_made {s : State} (h : Inv s) {i : Nat} {l : Loader} (hl : s.vars[i]? = some (some l)) :
    Inv { s with heap := s.heap ++ [some l.lib], vars := s.vars.set i (some { l with insts := l.insts ++ [s.heap.length] }), log := s.log ++ [.made i s.heap.length] } := by
  have hlt := (List.getElem?_eq_some_iff.1 hl).1
  have hal := (h.vars i).1 ⟨l, hl⟩
  have hno : ∀ j, Event.made j s.heap.length ∉ s.log := fun j hj => absurd (h.made j _ hj) (by omega)
  have hnf : Event.freed s.heap.length ∉ s.log := fun hf => by
    obtain ⟨j, hj⟩ := h.known _ hf
    exact hno j hj
  refine ⟨sound_snoc h.sound ⟨hal, hno⟩, ?_, ?_, ?_, ?_, ?_, ?_, ?_, ?_, ?_⟩
  · intro j
    have hv := h.vars j
    simp only [Alive, List.mem_append, List.mem_singleton, reduceCtorEq, or_false, getElem?_set' hlt] at hv ⊢
    rw [← hv]
    by_cases hj : j = i
    · subst hj
      simp [hl]
    · simp [hj]
  · simpa using h.fresh
  · intro m
    have h1 := h.handles m
    have h2 := libsOf_set (x := some { l with insts := l.insts ++ [s.heap.length] }) hl m
    simp only [Option.map_some, Option.some.injEq, List.count_append, List.count_singleton] at h1 h2 ⊢
    simp
    omega
  · intro j l' hj
    rcases (getElem?_set' hlt).1 hj with ⟨rfl, he⟩ | ⟨hji, hj⟩
    · cases he
      obtain ⟨h1, h2⟩ := h.inst j l hl
      refine ⟨?_, fun a => ?_⟩
      · rw [List.nodup_append]
        refine ⟨h1, by simp, fun a ha b hb hab => ?_⟩
        simp only [List.mem_singleton] at hb
        subst hab hb
        exact hno j ((h2 _).1 ha).1
      · simp only [List.mem_append, List.mem_singleton, Event.made.injEq, reduceCtorEq, or_false, true_and, h2]
        by_cases ha : a = s.heap.length
        · subst ha
          simp [hnf]
        · simp [ha]
    · simpa [hji] using h.inst j l' hj
  · intro j l' a hj ha
    rcases (getElem?_set' hlt).1 hj with ⟨rfl, he⟩ | ⟨hji, hj⟩
    · cases he
      simp only [List.mem_append, List.mem_singleton] at ha
      rcases ha with ha | rfl
      · have := h.heap j l a hl ha
        rw [List.getElem?_append_left (List.getElem?_eq_some_iff.1 this).1]
        exact this
      · simp
    · have := h.heap j l' a hj ha
      show (s.heap ++ _)[a]? = _
      rw [List.getElem?_append_left (List.getElem?_eq_some_iff.1 this).1]
      exact this
  · intro j a hj
    simp only [List.mem_append, List.mem_singleton, Event.made.injEq] at hj
    simp only [List.length_append, List.length_singleton]
    rcases hj with hj | ⟨-, rfl⟩
    · have := h.made j a hj
      omega
    · omega
  · intro j k a hj hk
    simp only [List.mem_append, List.mem_singleton, Event.made.injEq] at hj hk
    rcases hj with hj | ⟨rfl, rfl⟩
    · rcases hk with hk | ⟨rfl, rfl⟩
      · exact h.one j k a hj hk
      · exact absurd hj (hno j)
    · rcases hk with hk | ⟨rfl, -⟩
      · exact absurd hk (hno k)
      · rfl
  · intro j a hj hc
    simp only [List.mem_append, List.mem_singleton, Event.made.injEq, reduceCtorEq, or_false] at hj hc ⊢
    rcases hj with hj | ⟨rfl, rfl⟩
    · exact h.gone j a hj hc
    · exact absurd hc hal.2
  · intro a ha
    simp only [List.mem_append, List.mem_singleton, reduceCtorEq, or_false] at ha
    obtain ⟨j, hj⟩ := h.known a ha
    exact ⟨j, by simp [hj]⟩

theorem inv_freed {s : State} (h : Inv s) {i n a : Nat} {as : List Nat} (hl : s.vars[i]? = some (some ⟨n, a :: as⟩)) :
    Inv { s with heap := s.heap.set a none, vars := s.vars.set i (some ⟨n, as⟩), log := s.log ++ [.freed a] } := by
  have hlt := (List.getElem?_eq_some_iff.1 hl).1
  have hal := (h.vars i).1 ⟨_, hl⟩
  obtain ⟨hnd, hin⟩ := h.inst i _ hl
  obtain ⟨hm, hf⟩ := (hin a).1 (by simp)
  simp only [List.nodup_cons] at hnd
  refine ⟨sound_snoc h.sound ⟨i, hm, hal, hf⟩, ?_, ?_, ?_, ?_, ?_, ?_, ?_, ?_, ?_⟩
  · intro j
    have hv := h.vars j
    simp only [Alive, List.mem_append, List.mem_singleton, reduceCtorEq, or_false, getElem?_set' hlt] at hv ⊢
    rw [← hv]
    by_cases hj : j = i
    · subst hj
      simp [hl]
    · simp [hj]
  · simpa using h.fresh
  · intro m
    have h1 := h.handles m
    have h2 := libsOf_set (x := some ⟨n, as⟩) hl m
    simp only [Option.map_some, Option.some.injEq, List.count_append, List.count_singleton] at h1 h2 ⊢
    simp
    omega
  · intro j l' hj
    rcases (getElem?_set' hlt).1 hj with ⟨rfl, he⟩ | ⟨hji, hj⟩
    · cases he
      refine ⟨hnd.2, fun b => ?_⟩
      have := hin b
      simp only [List.mem_append, List.mem_singleton, Event.freed.injEq, reduceCtorEq, or_false, List.mem_cons] at this ⊢
      by_cases hb : b = a
      · subst hb
        simp [hnd.1]
      · simpa [hb] using this
    · obtain ⟨h1, h2⟩ := h.inst j l' hj
      refine ⟨h1, fun b => ?_⟩
      simp only [List.mem_append, List.mem_singleton, Event.freed.injEq, reduceCtorEq, or_false]
      rw [h2]
      by_cases hb : b = a
      · subst hb
        simp only [or_true, not_true, and_false, iff_false, not_and, not_not]
        exact fun hjm => absurd (h.one j i b hjm hm) hji
      · simp [hb]
  · intro j l' b hj hb
    have hne : a ≠ b := by
      rintro rfl
      rcases (getElem?_set' hlt).1 hj with ⟨rfl, he⟩ | ⟨hji, hj⟩
      · cases he
        exact hnd.1 hb
      · exact hji (h.one j i a (((h.inst j l' hj).2 a).1 hb).1 hm)
    show (s.heap.set a none)[b]? = _
    rw [List.getElem?_set_ne hne]
    rcases (getElem?_set' hlt).1 hj with ⟨rfl, he⟩ | ⟨hji, hj⟩
    · cases he
      exact h.heap j ⟨n, a :: as⟩ b hl (List.mem_cons_of_mem _ hb)
    · exact h.heap j l' b hj hb
  · simpa using h.made
  · simpa using h.one
  · intro j b hj hc
    have := h.gone j b (by simpa using hj) (by simpa using hc)
    simp [this]
  · intro b hb
    simp only [List.mem_append, List.mem_singleton, Event.freed.injEq] at hb
    rcases hb with hb | rfl
    · obtain ⟨j, hj⟩ := h.known b hb
      exact ⟨j, by simp [hj]⟩
    · exact ⟨i, by simp [hm]⟩

theorem inv_closed {s : State} (h : Inv s) {i n : Nat} (hl : s.vars[i]? = some (some ⟨n, []⟩)) :
    Inv { s with handles := s.handles.erase n, vars := s.vars.set i none, log := s.log ++ [.closed i] } := by
  have hlt := (List.getElem?_eq_some_iff.1 hl).1
  have hal := (h.vars i).1 ⟨_, hl⟩
  obtain ⟨-, hin⟩ := h.inst i _ hl
  have hfr : ∀ a, Event.made i a ∈ s.log → Event.freed a ∈ s.log := fun a ha => by
    by_contra hc
    exact absurd ((hin a).2 ⟨ha, hc⟩) (by simp)
  refine ⟨sound_snoc h.sound ⟨hal, hfr⟩, ?_, ?_, ?_, ?_, ?_, ?_, ?_, ?_, ?_⟩
  · intro j
    have hv := h.vars j
    simp only [Alive, List.mem_append, List.mem_singleton, reduceCtorEq, or_false, Event.closed.injEq, getElem?_set' hlt] at hv ⊢
    by_cases hj : j = i
    · subst hj
      simp
    · simpa [hj] using hv
  · simpa using h.fresh
  · intro m
    have h0 := h.handle hl
    have h1 := h.handles m
    have h2 := libsOf_set (x := none) hl m
    have h3 := List.count_erase (a := m) (b := n) (l := s.handles)
    simp only [Option.map_none, reduceCtorEq, if_false, List.count_append, List.count_singleton] at h1 h2 h3 ⊢
    have h4 := List.count_pos_iff.2 h0
    by_cases hnm : n = m
    · subst hnm
      simp at h2 h3 ⊢
      omega
    · have : ¬ m = n := fun h => hnm h.symm
      simp [hnm, this] at h2 h3 ⊢
      omega
  · intro j l' hj
    rcases (getElem?_set' hlt).1 hj with ⟨rfl, he⟩ | ⟨hji, hj⟩
    · cases he
    · simpa using h.inst j l' hj
  · intro j l' b hj hb
    rcases (getElem?_set' hlt).1 hj with ⟨rfl, he⟩ | ⟨hji, hj⟩
    · cases he
    · exact h.heap j l' b hj hb
  · simpa using h.made
  · simpa using h.one
  · intro j b hj hc
    simp only [List.mem_append, List.mem_singleton, Event.closed.injEq, reduceCtorEq, or_false] at hj hc ⊢
    rcases hc with hc | rfl
    · exact h.gone j b hj hc
    · exact hfr b hj
  · simpa using h.known

theorem set_set_self {vars : List (Option Loader)} {i : Nat} {x y : Option Loader} : (vars.set i x).set i y = vars.set i y := List.set_set ..

theorem deleteAll_ok {i n : Nat} : ∀ (as : List Nat) {s : State}, i < s.vars.length → Inv { s with vars := s.vars.set i (some ⟨n, as⟩) } →
    ∃ t, deleteAll as s = .ok t ∧ t.vars = s.vars ∧ t.handles = s.handles ∧ Inv { t with vars := t.vars.set i (some ⟨n, []⟩) }
  | [], s, _, h => ⟨s, rfl, rfl, rfl, h⟩
  | a :: as, s, hlt, h => by
    have hl : (s.vars.set i (some ⟨n, a :: as⟩))[i]? = some (some ⟨n, a :: as⟩) := List.getElem?_set_self hlt
    have ha : s.heap[a]? = some (some n) := h.heap i _ a hl (by simp)
    have hh : n ∈ s.handles := h.handle hl
    have h' := inv_freed h hl
    simp only [List.set_set] at h'
    obtain ⟨t, e1, e2, e3, e4⟩ := deleteAll_ok as (s := { s with heap := s.heap.set a none, log := s.log ++ [.freed a] }) hlt h'
    refine ⟨t, ?_, e2, e3, e4⟩
    rw [deleteAll]
    simp only [ha, if_pos hh]
    exact e1

theorem close_ok {s : State} (h : Inv s) {i : Nat} {l : Loader} (hl : s.vars[i]? = some (some l)) : ∃ t, close i s = .ok t ∧ Inv t ∧ Event.closed i ∈ t.log := by
  have hlt := (List.getElem?_eq_some_iff.1 hl).1
  have hs : s.vars.set i (some ⟨l.lib, l.insts⟩) = s.vars := by
    apply List.ext_getElem?
    intro j
    by_cases hj : i = j
    · subst hj
      rw [List.getElem?_set_self hlt, hl]
    · rw [List.getElem?_set_ne hj]
  obtain ⟨t, e1, e2, e3, e4⟩ := deleteAll_ok (i := i) (n := l.lib) l.insts (s := s) hlt (by rw [hs]; exact h)
  have hh : l.lib ∈ t.handles := by rw [e3]; exact h.handle hl
  have h' := inv_closed e4 (i := i) (n := l.lib) (List.getElem?_set_self (by rw [e2]; exact hlt))
  simp only [List.set_set] at h'
  exact ⟨_, by simp only [close, hl, e1, if_pos hh], h', by simp⟩

/-- Between calls, what has been deleted belonged to loaders that are destroyed. -/
def Late (tr : List Event) : Prop := ∀ a i, Event.freed a ∈ tr → Event.made i a ∈ tr → Event.closed i ∈ tr

theorem late_snoc {tr : List Event} (h : Late tr) {e : Event} (h1 : ∀ a, e ≠ .freed a) (h2 : ∀ i a, e = .made i a → Event.freed a ∉ tr) : Late (tr ++ [e]) := by
  intro a i hf hm
  simp only [List.mem_append, List.mem_singleton] at hf hm ⊢
  rcases hf with hf | hf
  · rcases hm with hm | hm
    · exact .inl (h a i hf hm)
    · exact absurd hf (h2 i a hm.symm)
  · exact absurd hf.symm (h1 a)

theorem deleteAll_log : ∀ (as : List Nat) {s t : State}, deleteAll as s = .ok t →
    (∀ a, Event.freed a ∈ t.log ↔ Event.freed a ∈ s.log ∨ a ∈ as) ∧ (∀ i a, Event.made i a ∈ t.log ↔ Event.made i a ∈ s.log) ∧ ∀ i, Event.closed i ∈ t.log ↔ Event.closed i ∈ s.log
  | [], s, t, h => by
    cases h
    simp
  | b :: as, s, t, h => by
    rw [deleteAll] at h
    split at h
    · split at h
      · obtain ⟨h1, h2, h3⟩ := deleteAll_log as h
        refine ⟨fun a => ?_, fun i a => ?_, fun i => ?_⟩
        · rw [h1]
          simp [or_assoc]
        · rw [h2]
          simp
        · rw [h3]
          simp
      · cases h
    · cases h

theorem close_late {s : State} (h : Inv s) (hb : Late s.log) {i : Nat} {l : Loader} (hl : s.vars[i]? = some (some l)) {t : State} (hc : close i s = .ok t) : Late t.log := by
  simp only [close, hl] at hc
  split at hc
  · rename_i u hu
    obtain ⟨h1, h2, h3⟩ := deleteAll_log _ hu
    split at hc
    · cases hc
      intro a j hf hm
      simp only [List.mem_append, List.mem_singleton, reduceCtorEq, or_false, Event.closed.injEq, h1, h2, h3] at hf hm ⊢
      rcases hf with hf | hf
      · exact .inl (hb a j hf hm)
      · exact .inr (h.one j i a hm (((h.inst i l hl).2 a).1 hf).1)
    · cases hc
  · rename_i hne
    exact absurd hc (hne _)

theorem step_inv {libs : Nat → Lib} {s : State} (h : Inv s) (hb : Late s.log) {o : Op} (ho : Proper s.log o) : ∃ t, (step libs o s = .ok t ∨ step libs o s = .thrown t) ∧ Inv t ∧ Late t.log := by
  cases o with
  | load n =>
    simp only [step, openLib]
    split
    · split
      · exact ⟨_, .inl rfl, inv_opened h n, late_snoc hb (by simp) (by simp)⟩
      · exact ⟨_, .inr rfl, inv_failed h n, late_snoc hb (by simp) (by simp)⟩
    · exact ⟨s, .inr rfl, h, hb⟩
  | create i cls arg =>
    obtain ⟨l, hl⟩ := (h.vars i).2 ho
    have hnew : ∀ j a, Event.made i s.heap.length = .made j a → Event.freed a ∉ s.log := by
      rintro j a ⟨⟩ hf
      obtain ⟨k, hk⟩ := h.known _ hf
      exact absurd (h.made k _ hk) (by omega)
    simp only [step, create, hl, if_pos (h.handle hl)]
    split
    · exact ⟨s, .inr rfl, h, hb⟩
    · exact ⟨s, .inr rfl, h, hb⟩
    · split
      · exact ⟨_, .inl rfl, inv_made h hl, late_snoc hb (by simp) hnew⟩
      · exact ⟨_, .inr rfl, inv_made h hl, late_snoc hb (by simp) hnew⟩
  | use a =>
    obtain ⟨i, hm, hal⟩ := ho
    obtain ⟨l, hl⟩ := (h.vars i).2 hal
    have hnf : Event.freed a ∉ s.log := fun hf => hal.2 (hb a i hf hm)
    have ha := ((h.inst i l hl).2 a).2 ⟨hm, hnf⟩
    refine ⟨_, .inl ?_, inv_used h hl ha, late_snoc hb (by simp) (by simp)⟩
    simp only [step, use, h.heap i l a hl ha, if_pos (h.handle hl)]
  | copy i => exact ho.elim
  | close i =>
    obtain ⟨l, hl⟩ := (h.vars i).2 ho
    obtain ⟨t, h1, h2, -⟩ := close_ok h hl
    exact ⟨t, .inl h1, h2, close_late h hb hl h1⟩

theorem start_inv : Inv .start := by
  refine ⟨?_, ?_, ?_, ?_, ?_, ?_, ?_, ?_, ?_, ?_⟩ <;> simp [State.start, Sound, Alive, libsOf]

end Libube.ModuleProps

import Verif.Model.OwningMkl

/-! # C151: transforms with the MKL as owners of memory -/

namespace Libube.OwningMkl

/-- The memory of the transform, or its descriptor, has not been freed. -/
def Held (s : State) (a : Nat) : Prop := ∃ o, s.objs[a]? = some o ∧ (o.alloc = true ∨ o.desc = .there)

/-- The functors of a statement exist. -/
def Proper (s : State) : Op → Prop
  | .copy i | .use i => i < s.funs.length
  | .assign i j => i < s.funs.length ∧ j < s.funs.length
  | _ => True

/-- No functor is copied. -/
def single : Op → Bool
  | .copy _ | .assign _ _ => false
  | _ => true

/-- The constructor throws: a type it does not know, or an error of the library. -/
def throws : Op → Bool
  | .dft t l => !((t = .float || t = .double || t = .cfloat) && l.create && l.set && l.commit)
  | _ => false

/-- The states that programs get to that copy no functor.  `L` are the transforms whose constructors have thrown. -/
inductive Reach : List Nat → State → Prop
  | start : Reach [] start
  | step {L : List Nat} {s s' : State} (o : Op) : Reach L s → Proper s o → single o = true → step o s = .ok s' →
      Reach (if throws o then L ++ [s.objs.length] else L) s'

/-- Every functor has its memory and its descriptor, no two the same, and everything else is lost or freed. -/
structure Inv (L : List Nat) (s : State) : Prop where
  alive : ∀ f ∈ s.funs, s.objs[f]? = some ⟨true, .there⟩
  nodup : s.funs.Nodup
  exact : ∀ (a : Nat) (o : Obj), s.objs[a]? = some o → a ∈ s.funs ∨ a ∈ L ∨ o = ⟨false, .freed⟩
  lost : ∀ a ∈ L, a ∉ s.funs ∧ (s.objs[a]? = some ⟨true, .none⟩ ∨ s.objs[a]? = some ⟨true, .there⟩)

theorem lt_of {m : List Obj} {a : Nat} {o : Obj} (h : m[a]? = some o) : a < m.length := (List.getElem?_eq_some_iff.1 h).1

theorem keep {m : List Obj} {a : Nat} {o : Obj} (x : Obj) (h : m[a]? = some o) : (m ++ [x])[a]? = some o := by
  rw [List.getElem?_append_left (lt_of h)]; exact h

theorem look {m : List Obj} {a : Nat} {x o : Obj} (h : (m ++ [x])[a]? = some o) : m[a]? = some o ∨ (a = m.length ∧ o = x) := by
  by_cases hb : a < m.length
  · rw [List.getElem?_append_left hb] at h; exact .inl h
  · have := lt_of h
    simp only [List.length_append, List.length_singleton] at this
    have e : a = m.length := by omega
    subst e
    simp at h
    exact .inr ⟨rfl, h.symm⟩

theorem Inv.lt {L : List Nat} {s : State} (h : Inv L s) : ∀ f ∈ s.funs, f < s.objs.length := fun f hf => lt_of (h.alive f hf)

theorem Inv.lost_lt {L : List Nat} {s : State} (h : Inv L s) : ∀ a ∈ L, a < s.objs.length := fun a ha => by
  rcases (h.lost a ha).2 with h | h <;> exact lt_of h

theorem inv_new {L : List Nat} {s : State} (h : Inv L s) : Inv L ⟨s.objs ++ [⟨true, .there⟩], s.funs ++ [s.objs.length]⟩ where
  alive f hf := by
    rw [List.mem_append, List.mem_singleton] at hf
    rcases hf with hf | rfl
    · exact keep _ (h.alive f hf)
    · simp
  nodup := by
    rw [List.nodup_append]
    refine ⟨h.nodup, by simp, fun a ha b hb => ?_⟩
    have := h.lt a ha
    simp only [List.mem_singleton] at hb
    omega
  exact a o ho := by
    rcases look ho with ho | ⟨rfl, -⟩
    · rcases h.exact a o ho with h | h | h
      · exact .inl (by simp [h])
      · exact .inr (.inl h)
      · exact .inr (.inr h)
    · exact .inl (by simp)
  lost a ha := by
    obtain ⟨h1, h2⟩ := h.lost a ha
    refine ⟨?_, h2.imp (keep _) (keep _)⟩
    have := h.lost_lt a ha
    simp only [List.mem_append, List.mem_singleton, not_or]
    exact ⟨h1, by omega⟩

theorem inv_throw {L : List Nat} {s : State} (h : Inv L s) (d : Desc) (hd : d = .none ∨ d = .there) : Inv (L ++ [s.objs.length]) { s with objs := s.objs ++ [⟨true, d⟩] } where
  alive f hf := keep _ (h.alive f hf)
  nodup := h.nodup
  exact a o ho := by
    rcases look ho with ho | ⟨rfl, -⟩
    · rcases h.exact a o ho with h | h | h
      · exact .inl h
      · exact .inr (.inl (by simp [h]))
      · exact .inr (.inr h)
    · exact .inr (.inl (by simp))
  lost a ha := by
    rw [List.mem_append, List.mem_singleton] at ha
    rcases ha with ha | rfl
    · obtain ⟨h1, h2⟩ := h.lost a ha
      exact ⟨h1, h2.imp (keep _) (keep _)⟩
    · refine ⟨fun hm => Nat.lt_irrefl _ (h.lt _ hm), ?_⟩
      rcases hd with rfl | rfl <;> simp

theorem leave_some {s : State} {fs : List Nat} {f : Nat} {b : Bool} (h : s.funs = fs ++ [f]) : step (.leave b) s = destroy b f { s with funs := fs } := by
  simp only [step, h, List.getLast?_append, List.getLast?_singleton, Option.some_or, List.dropLast_concat]

theorem inv_leave {L : List Nat} {s : State} (h : Inv L s) : ∃ s', step (.leave true) s = .ok s' ∧ Inv L s' := by
  rcases List.eq_nil_or_concat s.funs with hv | ⟨fs, f, hv⟩
  · exact ⟨s, by simp only [step, hv]; rfl, h⟩
  rw [List.concat_eq_append] at hv
  rw [leave_some hv]
  have hf := h.alive f (by rw [hv]; simp)
  have hnd := h.nodup
  rw [hv, List.nodup_append] at hnd
  have hne : ∀ g ∈ fs, f ≠ g := fun g hg e => hnd.2.2 g hg f (by simp) e.symm
  refine ⟨⟨s.objs.set f ⟨false, .freed⟩, fs⟩, by simp only [destroy, hf, if_true], ⟨fun g hg => ?_, hnd.1, fun a o ho => ?_, fun a ha => ?_⟩⟩
  · simp only
    rw [List.getElem?_set_ne (hne g hg)]
    exact h.alive g (by rw [hv]; simp [hg])
  · simp only at ho
    by_cases e : f = a
    · subst e
      rw [List.getElem?_set_self (lt_of hf)] at ho
      cases ho
      exact .inr (.inr rfl)
    · rw [List.getElem?_set_ne e] at ho
      rcases h.exact a o ho with h | h | h
      · rw [hv, List.mem_append, List.mem_singleton] at h
        rcases h with h | h
        · exact .inl h
        · exact absurd h.symm e
      · exact .inr (.inl h)
      · exact .inr (.inr h)
  · obtain ⟨h1, h2⟩ := h.lost a ha
    rw [hv, List.mem_append, List.mem_singleton, not_or] at h1
    refine ⟨h1.1, ?_⟩
    simp only
    rw [List.getElem?_set_ne (fun e => h1.2 e.symm)]
    exact h2

/-- The library fails to free a descriptor of a functor there is. -/
def Fails (s : State) (o : Op) : Prop := o = .leave false ∧ s.funs ≠ []

theorem inv_step {L : List Nat} {s : State} (h : Inv L s) (o : Op) (hp : Proper s o) (hs : single o = true) (hf : ¬ Fails s o) :
    ∃ s', step o s = .ok s' ∧ Inv (if throws o then L ++ [s.objs.length] else L) s' := by
  cases o with
  | dft t l =>
    refine ⟨_, rfl, ?_⟩
    obtain ⟨b1, b2, b3⟩ := l
    have hn := inv_new h
    have h1 := inv_throw h .none (.inl rfl)
    have h2 := inv_throw h .there (.inr rfl)
    cases t <;> cases b1 <;> cases b2 <;> cases b3 <;> first | exact hn | exact h1 | exact h2
  | copy i => cases hs
  | assign i j => cases hs
  | use i =>
    have hi : i < s.funs.length := hp
    refine ⟨s, ?_, h⟩
    simp only [step, List.getElem?_eq_getElem hi, use, h.alive _ (List.getElem_mem hi), if_true]
  | leave b =>
    cases b with
    | true => exact inv_leave h
    | false =>
      have he : s.funs = [] := by
        by_contra hc
        exact hf ⟨rfl, hc⟩
      exact ⟨s, by simp only [step, he]; rfl, h⟩

theorem fails_abort {L : List Nat} {s : State} (h : Inv L s) (o : Op) (hf : Fails s o) : step o s = .abort := by
  obtain ⟨rfl, hf⟩ := hf
  rcases List.eq_nil_or_concat s.funs with hv | ⟨fs, f, hv⟩
  · exact absurd hv hf
  rw [List.concat_eq_append] at hv
  rw [leave_some hv]
  simp only [destroy, h.alive f (by rw [hv]; simp), if_true, Bool.false_eq_true, if_false]

theorem reach_inv {L : List Nat} {s : State} (h : Reach L s) : Inv L s := by
  induction h with
  | start => exact ⟨nofun, List.nodup_nil, nofun, nofun⟩
  | step o _ hp hs e ih =>
    rename_i s s1 _
    by_cases hf : Fails s o
    · rw [fails_abort ih o hf] at e; cases e
    · obtain ⟨s', e', h'⟩ := inv_step ih o hp hs hf
      cases e.symm.trans e'
      exact h'

/-- C151: in programs that copy no functor, no statement uses or frees what has been freed; the program ends if, and only if, the library fails to free a descriptor,
    because the destructor throws.  Missing: copies (`copy_undefined`). -/
theorem mkl_owning_safe_partial {L : List Nat} {s : State} (h : Reach L s) (o : Op) (hp : Proper s o) (hs : single o = true) :
    if o = .leave false ∧ s.funs ≠ [] then step o s = .abort else ∃ s', step o s = .ok s' := by
  split
  · rename_i hf
    exact fails_abort (reach_inv h) o hf
  · rename_i hf
    exact (inv_step (reach_inv h) o hp hs hf).imp fun _ h => h.1

/-- C151: memory and descriptor of a transform are there until its one functor goes, or were left by a constructor that threw.  Missing: copies. -/
theorem mkl_owning_exact_partial {L : List Nat} {s : State} (h : Reach L s) (a : Nat) :
    (Held s a ↔ a ∈ s.funs ∨ a ∈ L) ∧ (∀ f ∈ s.funs, s.objs[f]? = some ⟨true, .there⟩) ∧
    ∀ (i j : Nat) (f : Nat), s.funs[i]? = some f → s.funs[j]? = some f → i = j := by
  have h := reach_inv h
  refine ⟨⟨fun ⟨o, ho, hh⟩ => ?_, ?_⟩, h.alive, fun i j f hi hj => ?_⟩
  · rcases h.exact a o ho with h | h | rfl
    · exact .inl h
    · exact .inr h
    · simp at hh
  · rintro (hf | hL)
    · exact ⟨_, h.alive a hf, .inl rfl⟩
    · rcases (h.lost a hL).2 with h | h <;> exact ⟨_, h, .inl rfl⟩
  · obtain ⟨hi1, hi2⟩ := List.getElem?_eq_some_iff.1 hi
    obtain ⟨hj1, hj2⟩ := List.getElem?_eq_some_iff.1 hj
    exact (List.Nodup.getElem_inj_iff h.nodup).1 (hi2.trans hj2.symm)

/-- C151, at the end: what is left is of constructors that threw.  Missing: that (`mkl_throw_lost`) and copies. -/
theorem mkl_owning_end_partial {L : List Nat} {s : State} (h : Reach L s) (he : s.funs = []) (a : Nat) : Held s a ↔ a ∈ L := by
  rw [(mkl_owning_exact_partial h a).1, he]
  simp

/-- Two functors and two transforms lost. -/
def sample : State := ⟨[⟨true, .there⟩, ⟨true, .none⟩, ⟨true, .there⟩, ⟨true, .there⟩], [0, 3]⟩

theorem sample_reach : Reach [1, 2] sample := by
  have h1 := Reach.step (.dft .float ⟨true, true, true⟩) .start trivial rfl rfl
  have h2 := Reach.step (.dft .int ⟨true, true, true⟩) h1 trivial rfl rfl
  have h3 := Reach.step (.dft .cfloat ⟨true, true, false⟩) h2 trivial rfl rfl
  exact .step (.dft .double ⟨true, true, true⟩) h3 trivial rfl rfl

example : Proper sample (.use 1) ∧ step (.use 1) sample = .ok sample ∧ step (.leave false) sample = .abort ∧
    run [.leave true, .leave true] sample = .ok ⟨[⟨false, .freed⟩, ⟨true, .none⟩, ⟨true, .there⟩, ⟨false, .freed⟩], []⟩ := by
  refine ⟨Nat.lt_succ_self 1, rfl, rfl, rfl⟩

/-- Nothing is ever lost. -/
def NothingLost : Prop := ∀ L s, Reach L s → s.funs = [] → ∀ a, ¬ Held s a

/-- A constructor in which `DftiCommitDescriptor` fails loses its memory and its descriptor. -/
theorem mkl_throw_lost : ¬ NothingLost ∧ ∃ s, step (.dft .float ⟨true, true, false⟩) start = .ok s ∧ s.funs = [] ∧ s.objs = [⟨true, .there⟩] :=
  ⟨fun h => h [0] ⟨[⟨true, .there⟩], []⟩ (.step (.dft .float ⟨true, true, false⟩) .start trivial rfl rfl) rfl 0 ⟨_, rfl, .inl rfl⟩, _, rfl, rfl, rfl⟩

/-- If a functor has lost its memory, that is used when it goes. -/
theorem freed_undefined : ∀ (n : Nat) (s : State), s.funs.length = n → (∀ f ∈ s.funs, s.objs[f]? = some ⟨true, .there⟩ ∨ s.objs[f]? = some ⟨false, .freed⟩) →
    (¬ s.funs.Nodup ∨ ∃ f ∈ s.funs, s.objs[f]? = some ⟨false, .freed⟩) → run (List.replicate n (.leave true)) s = .ub .useAfterFree
  | 0, s, hn, _, hd => by
    rw [List.length_eq_zero_iff] at hn
    rw [hn] at hd
    simp at hd
  | n + 1, s, hn, hw, hd => by
    rcases List.eq_nil_or_concat s.funs with hv | ⟨fs, g, hv⟩
    · rw [hv] at hd; simp at hd
    rw [List.concat_eq_append] at hv
    have e0 : run (List.replicate (n + 1) (.leave true)) s = (step (.leave true) s >>= run (List.replicate n (.leave true))) := rfl
    rw [e0, leave_some hv]
    rcases hw g (by rw [hv]; simp) with hg | hg
    · simp only [destroy, hg, if_true, Outcome.bind_ok]
      refine freed_undefined n _ (by rw [hv] at hn; simpa using hn) (fun f hf => ?_) ?_
      · simp only
        by_cases e : g = f
        · subst e; rw [List.getElem?_set_self (lt_of hg)]; exact .inr rfl
        · rw [List.getElem?_set_ne e]; exact hw f (by rw [hv]; simp [show f ∈ fs from hf])
      · simp only
        by_cases hm : g ∈ fs
        · exact .inr ⟨g, hm, by rw [List.getElem?_set_self (lt_of hg)]⟩
        · rcases hd with hd | ⟨f, hf, hff⟩
          · left
            intro hnd
            apply hd
            rw [hv, List.nodup_append]
            refine ⟨hnd, by simp, fun a ha b hb => ?_⟩
            simp only [List.mem_singleton] at hb
            rintro rfl
            exact hm (hb ▸ ha)
          · have hne : g ≠ f := by rintro rfl; rw [hg] at hff; cases hff
            rw [hv, List.mem_append, List.mem_singleton] at hf
            rcases hf with hf | hf
            · exact .inr ⟨f, hf, by rw [List.getElem?_set_ne hne]; exact hff⟩
            · exact absurd hf.symm hne
    · simp only [destroy, hg, Bool.false_eq_true, if_false, Outcome.bind_ub]

/-- Every functor that is copied, wherever in a program, has its memory used after it has been freed when all go. -/
theorem mkl_copy_undefined {L : List Nat} {s : State} (h : Reach L s) {i : Nat} (hi : i < s.funs.length) :
    run (.copy i :: List.replicate (s.funs.length + 1) (.leave true)) s = .ub .useAfterFree := by
  have h := reach_inv h
  simp only [run, step, List.getElem?_eq_getElem hi, Outcome.bind_ok]
  refine freed_undefined _ _ (by simp) (fun f hf => .inl ?_) (.inl fun hn => ?_)
  · rw [List.mem_append, List.mem_singleton] at hf
    rcases hf with hf | rfl
    · exact h.alive f hf
    · exact h.alive _ (List.getElem_mem hi)
  · rw [List.nodup_append] at hn
    exact hn.2.2 _ (List.getElem_mem hi) _ (by simp) rfl

/-- So has every functor that is assigned to another. -/
theorem mkl_assign_undefined {L : List Nat} {s : State} (h : Reach L s) {i j : Nat} (hp : Proper s (.assign i j)) (hij : i ≠ j) :
    run (.assign i j :: List.replicate s.funs.length (.leave true)) s = .ub .useAfterFree := by
  have h := reach_inv h
  obtain ⟨hi, hj⟩ := hp
  simp only [run, step, List.getElem?_eq_getElem hj, Outcome.bind_ok]
  refine freed_undefined _ _ (by simp) (fun f hf => .inl ?_) (.inl fun hn => ?_)
  · rcases List.mem_or_eq_of_mem_set hf with hf | rfl
    · exact h.alive _ hf
    · exact h.alive _ (List.getElem_mem hj)
  · have h1 : (s.funs.set i s.funs[j])[i]? = some s.funs[j] := List.getElem?_set_self hi
    have h2 : (s.funs.set i s.funs[j])[j]? = some s.funs[j] := by rw [List.getElem?_set_ne hij, List.getElem?_eq_getElem hj]
    obtain ⟨hi1, hi2⟩ := List.getElem?_eq_some_iff.1 h1
    obtain ⟨hj1, hj2⟩ := List.getElem?_eq_some_iff.1 h2
    exact hij ((List.Nodup.getElem_inj_iff hn).1 (hi2.trans hj2.symm))

example : Proper sample (.assign 0 1) ∧ run [.copy 0, .leave true, .leave true, .leave true] sample = .ub .useAfterFree ∧
    run [.assign 0 1, .leave true, .leave true] sample = .ub .useAfterFree := ⟨⟨by decide, by decide⟩, rfl, rfl⟩

/-- A descriptor is lost by an assignment as well: `DFT f(8), g(8); f = g;`. -/
theorem mkl_assign_lost : ∃ s, run [.dft .float ⟨true, true, true⟩, .dft .float ⟨true, true, true⟩, .assign 0 1] start = .ok s ∧ Held s 0 ∧ 0 ∉ s.funs :=
  ⟨_, rfl, ⟨_, rfl, .inl rfl⟩, by decide⟩

#print axioms mkl_owning_safe_partial
#print axioms mkl_owning_exact_partial
#print axioms mkl_owning_end_partial
#print axioms mkl_throw_lost
#print axioms mkl_copy_undefined
#print axioms mkl_assign_undefined
#print axioms mkl_assign_lost

end Libube.OwningMkl

import Verif.Lemmas.Module

/-! # Modules (C125, C126) -/

namespace Libube.ModuleProps

open Module ModuleSpec

theorem reach_inv {libs : Nat → Lib} {s : State} (h : Reach libs s) : Inv s ∧ Late s.log := by
  induction h with
  | start => exact ⟨start_inv, by intro a i hf; cases hf⟩
  | ok _ ho e ih =>
    obtain ⟨t, h1, h2⟩ := step_inv (libs := libs) ih.1 ih.2 ho
    rw [e] at h1
    rcases h1 with h1 | h1 <;> cases h1
    exact h2
  | thrown _ ho e ih =>
    obtain ⟨t, h1, h2⟩ := step_inv (libs := libs) ih.1 ih.2 ho
    rw [e] at h1
    rcases h1 with h1 | h1 <;> cases h1
    exact h2

/-- C125: a program that does not copy loaders, and uses loaders and the instances that they made while the loaders exist, does nothing undefined, whatever the libraries do. -/
theorem module_safe {libs : Nat → Lib} {s : State} (h : Reach libs s) {o : Op} (ho : Proper s.log o) : ∃ t, step libs o s = .ok t ∨ step libs o s = .thrown t := by
  obtain ⟨hi, hb⟩ := reach_inv h
  obtain ⟨t, ht, -⟩ := step_inv (libs := libs) hi hb ho
  exact ⟨t, ht⟩

/-- C125: what happens is in order: no instance is used or deleted after it has been deleted or after its library was closed, and no library is closed before all instances are deleted. -/
theorem module_sound {libs : Nat → Lib} {s : State} (h : Reach libs s) : Sound s.log := (reach_inv h).1.sound

theorem count_le_one {tr : List Event} (h : Sound tr) (a : Nat) : tr.count (.freed a) ≤ 1 := by
  by_contra hc
  obtain ⟨pre, post, hp⟩ := List.append_of_mem (a := Event.freed a) (l := tr) (List.count_pos_iff.1 (by omega))
  have h2 : 0 < (pre ++ post).count (.freed a) := by
    rw [hp] at hc
    simp only [List.count_append, List.count_cons_self] at hc ⊢
    omega
  rcases List.mem_append.1 (List.count_pos_iff.1 h2) with h3 | h3
  · obtain ⟨i, -, -, h4⟩ := h pre _ post hp
    exact h4 h3
  · obtain ⟨p2, q2, hq⟩ := List.append_of_mem h3
    obtain ⟨i, -, -, h4⟩ := h (pre ++ .freed a :: p2) (.freed a) q2 (by rw [hp, hq]; simp)
    exact h4 (by simp)

/-- C125: when a loader has been destroyed, each of its instances has been deleted once. -/
theorem module_deleted_once {libs : Nat → Lib} {s : State} (h : Reach libs s) {i a : Nat} (hm : Event.made i a ∈ s.log) (hc : Event.closed i ∈ s.log) : s.log.count (.freed a) = 1 := by
  have hi := (reach_inv h).1
  have h1 := count_le_one hi.sound a
  have h2 := List.count_pos_iff.2 (hi.gone i a hm hc)
  omega

/-- C125: an instance exists as long as its loader. -/
theorem module_exists {libs : Nat → Lib} {s : State} (h : Reach libs s) {i a : Nat} (hm : Event.made i a ∈ s.log) (hc : Event.closed i ∉ s.log) : Event.freed a ∉ s.log :=
  fun hf => hc ((reach_inv h).2 a i hf hm)

/-- C125: a loader that exists can be destroyed. -/
theorem module_close {libs : Nat → Lib} {s : State} (h : Reach libs s) {i : Nat} (ha : Alive s.log i) : ∃ t, step libs (.close i) s = .ok t ∧ Event.closed i ∈ t.log := by
  have hi := (reach_inv h).1
  obtain ⟨l, hl⟩ := (hi.vars i).2 ha
  obtain ⟨t, h1, -, h2⟩ := close_ok hi hl
  exact ⟨t, h1, h2⟩

/-- C126: when all loaders have been destroyed, a library is open as often as it was found without a factory.
    Missing: that would have to be never (`module_leak`). -/
theorem module_handles_partial {libs : Nat → Lib} {s : State} (h : Reach libs s) (ha : ∀ i, ¬ Alive s.log i) (n : Nat) : s.handles.count n = s.log.count (.failed n) := by
  have hi := (reach_inv h).1
  have hz : libsOf s.vars = [] := by
    rw [List.eq_nil_iff_forall_not_mem]
    intro m hm
    obtain ⟨x, hx, hx'⟩ := List.mem_filterMap.1 hm
    obtain ⟨l, rfl, -⟩ := Option.map_eq_some_iff.1 hx'
    obtain ⟨i, hi'⟩ := List.getElem?_of_mem hx
    exact ha i ((hi.vars i).1 ⟨l, hi'⟩)
  rw [hi.handles, hz]
  simp

/-- Libraries: 0 makes instances of class 7 for argument 1 and nothing for others; 1 has no factory; there are no others. -/
def libs : Nat → Lib
  | 0 => ⟨true, true, fun x => if x = 1 then .object 7 else .null⟩
  | 1 => ⟨true, false, fun _ => .null⟩
  | _ => ⟨false, false, fun _ => .null⟩

/-- The state after a program. -/
def after (os : List Op) : State := match run libs os .start with | .ok s => s | _ => .start

/-- `module m(0); m.create(1); m.create(1)` with the wrong class, `m.create(2)` -/
def progMake : List Op := [.load 0, .create 0 7 1, .create 0 8 1, .create 0 7 2, .load 0]

theorem progMake_log : (after progMake).log = [.opened 0 0, .made 0 0, .made 0 1, .opened 1 0] := by decide +kernel

theorem reach_after (os : List Op) (o : Op) (h : Reach libs (after os)) (hp : Proper (after os).log o)
    (hs : step libs o (after os) = .ok (after (os ++ [o])) ∨ step libs o (after os) = .thrown (after (os ++ [o]))) : Reach libs (after (os ++ [o])) :=
  hs.elim (.ok h hp) (.thrown h hp)

theorem alive_of {tr : List Event} {i n : Nat} (h1 : Event.opened i n ∈ tr) (h2 : Event.closed i ∉ tr) : Alive tr i := ⟨⟨n, h1⟩, h2⟩

theorem progMake_reach : Reach libs (after progMake) := by
  refine reach_after [.load 0, .create 0 7 1, .create 0 8 1, .create 0 7 2] _ ?_ trivial (.inl (by decide +kernel))
  refine reach_after [.load 0, .create 0 7 1, .create 0 8 1] _ ?_ (alive_of (n := 0) (by decide +kernel) (by decide +kernel)) (.inr (by decide +kernel))
  refine reach_after [.load 0, .create 0 7 1] _ ?_ (alive_of (n := 0) (by decide +kernel) (by decide +kernel)) (.inr (by decide +kernel))
  refine reach_after [.load 0] _ ?_ (alive_of (n := 0) (by decide +kernel) (by decide +kernel)) (.inl (by decide +kernel))
  exact reach_after [] _ .start trivial (.inl (by decide +kernel))

/-- An instance may be used; then the loader goes out of scope: both instances are deleted, also the one of the wrong class. -/
example : (∃ t, step libs (.use 1) (after progMake) = .ok t ∨ step libs (.use 1) (after progMake) = .thrown t) ∧ Sound (after progMake).log ∧
    ∃ t, step libs (.close 0) (after progMake) = .ok t ∧ t.log.count (.freed 0) = 1 ∧ t.log.count (.freed 1) = 1 := by
  have ha : Alive (after progMake).log 0 := alive_of (n := 0) (by decide +kernel) (by decide +kernel)
  refine ⟨module_safe progMake_reach ⟨0, by decide +kernel, ha⟩, module_sound progMake_reach, ?_⟩
  obtain ⟨t, h1, h2⟩ := module_close progMake_reach ha
  have hr : Reach libs t := .ok (o := .close 0) progMake_reach ha h1
  have hm : step libs (.close 0) (after progMake) = .ok (after (progMake ++ [.close 0])) := by decide +kernel
  rw [hm] at h1
  cases h1
  exact ⟨_, hm, module_deleted_once hr (i := 0) (by decide +kernel) h2, module_deleted_once hr (i := 0) (by decide +kernel) h2⟩

/-- Before that both exist. -/
example : Event.freed 1 ∉ (after progMake).log := module_exists progMake_reach (i := 0) (by decide +kernel) (by decide +kernel)

/-- A program after which no loader exists and no library is open. -/
example : Reach libs (after [.load 0, .close 0]) ∧ ∀ n, (after [.load 0, .close 0]).handles.count n = 0 := by
  have hr : Reach libs (after [.load 0, .close 0]) := by
    refine reach_after [.load 0] _ ?_ (alive_of (n := 0) (by decide +kernel) (by decide +kernel)) (.inl (by decide +kernel))
    exact reach_after [] _ .start trivial (.inl (by decide +kernel))
  have hl : (after [.load 0, .close 0]).log = [.opened 0 0, .closed 0] := by decide +kernel
  refine ⟨hr, fun n => ?_⟩
  rw [module_handles_partial hr (by rw [hl]; simp [Alive]), hl]
  simp

/-- A library without the factory stays open. -/
theorem module_leak : Reach libs (after [.load 1]) ∧ step libs (.load 1) .start = .thrown (after [.load 1]) ∧ (∀ i, ¬ Alive (after [.load 1]).log i) ∧ (after [.load 1]).handles = [1] := by
  have hl : (after [.load 1]).log = [.failed 1] := by decide +kernel
  exact ⟨reach_after [] _ .start trivial (.inr (by decide +kernel)), by decide +kernel, by rw [hl]; simp [Alive], by decide +kernel⟩

/-- `module m(0); m.create(1); module k(m);`: at the end of the scope the instance is deleted twice. -/
theorem module_copy_undefined : run libs [.load 0, .create 0 7 1, .copy 0, .close 1, .close 0] .start = .ub .useAfterFree := by decide +kernel

/-- `graph& g = graphmodule().create();`: the instance is gone with its loader. -/
theorem module_temporary_undefined : run libs [.load 0, .create 0 7 1, .close 0, .use 0] .start = .ub .useAfterFree := by decide +kernel

#print axioms module_safe
#print axioms module_sound
#print axioms module_deleted_once
#print axioms module_exists
#print axioms module_close
#print axioms module_handles_partial
#print axioms module_leak
#print axioms module_copy_undefined
#print axioms module_temporary_undefined

end Libube.ModuleProps

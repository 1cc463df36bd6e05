import Verif.Spec.MemConst
import Verif.Lemmas.MemPrintFrame
import Verif.Props.MemSort
import Verif.Props.MemPrint

/-! # Comparing, searching and printing change nothing (C173) -/

namespace Libube.MemProps

open Mem MemSpec

variable {α : Type}

/-- All variables and all arrays of a state. -/
def whole (s : State α) : Fr α := ⟨fun n v => s.stk[n]? = some v, fun b => b < s.mem.length, s⟩

theorem whole_inv (s : State α) : (whole s).Inv s := ⟨fun _ _ h => h, le_refl _, fun _ hb => ⟨hb, fun o ho => ⟨o, ho, rfl, rfl, rfl⟩⟩⟩

theorem looks_frame [Env α] {f : Fr α} {st : Stmt α} (h : Looks st) : f.H (run st) Any := by
  cases st with
  | differ N d m k =>
    exact .bind (.bind (RO.frame (readLoc_ro _)) fun _ _ => .bind (RO.frame (readLoc_ro _)) fun _ _ => callOp_frame (neqV_frame N d) _ _) fun _ _ => .pure trivial
  | equal N d m k => exact .bind (.bind (RO.frame (readLoc_ro _)) fun _ _ => .bind (RO.frame (readLoc_ro _)) fun _ _ => eqV_frame N d _ _) fun _ _ => .pure trivial
  | less N d m k =>
    exact .bind (.bind (RO.frame (readLoc_ro _)) fun _ _ => .bind (RO.frame (readLoc_ro _)) fun _ _ => callOp_frame (ltV_frame N d) _ _) fun _ _ => .pure trivial
  | find N d m k =>
    refine .bind (Q := Any) ?_ fun _ _ => .pure trivial
    exact .bind (RO.frame (readLoc_ro _)) fun _ _ => .bind (copyV_frame _) fun _ _ => withVar_frame fun _ _ => .bind (RO.frame (readLoc_ro _)) fun _ _ =>
      .bind (RO.frame (readLoc_ro _)) fun _ _ => indexV_frame N d _ _
  | print h p d m =>
    exact .bind (.bind (RO.frame (readLoc_ro _)) fun _ _ => .bind (copyV_frame _) fun _ _ => putVar_frame (fun l _ => format_within p d _ _ l) _) fun _ _ => .pure trivial
  | _ => exact absurd h id

theorem looks_keep [Env α] {st : Stmt α} (h : Looks st) : Keep true (run st) [] (fun _ => []) := by
  cases st with
  | differ N d n m => exact (differ_keep N d n m).bind fun _ => Keep.pure _ fun _ => rfl
  | equal N d n m => exact (equal_keep N d n m).bind fun _ => Keep.pure _ fun _ => rfl
  | less N d n m => exact (less_keep N d n m).bind fun _ => Keep.pure _ fun _ => rfl
  | find N d n m => exact (indexOf_keep N d n m).bind fun _ => Keep.pure _ fun _ => rfl
  | print h p d n => exact (print_keep p d n).bind fun _ => Keep.pure _ fun _ => rfl
  | _ => exact absurd h id

theorem keep_ends [Env α] {st : Stmt α} (h : Keep true (run st) [] (fun _ => [])) {s s' : State α} (hr : Reach s) (he : Ends st s s') : s'.stk.length = s.stk.length := by
  obtain ⟨own, hi⟩ := reach_inv hr
  have := h s own hi
  rcases he with he | ⟨e, he⟩ <;> rw [he] at this
  · obtain ⟨L, -, -, h⟩ := this
    exact h
  · obtain ⟨L, -, -, h⟩ := this
    exact h

theorem ends_reach [Env α] {st : Stmt α} {s s' : State α} (hr : Reach s) (he : Ends st s s') : Reach s' := by
  rcases he with he | ⟨e, he⟩
  · exact .ok hr he
  · exact .thrown hr he

theorem stk_same {f : Fr α} {s s' : State α} (hf : ∀ n v, s.stk[n]? = some v → f.L n v) (hi : f.Inv s') (hl : s'.stk.length = s.stk.length) : s'.stk = s.stk := by
  apply List.ext_getElem? 
  intro n
  cases h : s.stk[n]? with
  | some v => exact hi.1 n v (hf n v h)
  | none =>
    rw [List.getElem?_eq_none_iff] at h ⊢
    omega

/-- Comparing two variables, searching one for the other, or printing one changes no variable, and nothing that a variable holds:
    whatever the variables are, and even if it throws. -/
theorem looking_changes_nothing [Env α] {s s' : State α} (hr : Reach s) {st : Stmt α} (h : Looks st) (he : Ends st s s') : InVarsSame s s' := by
  have hf : (whole s).Inv s' := by
    have := looks_frame (f := whole s) h s (whole_inv s)
    rcases he with he | ⟨e, he⟩ <;> rw [he] at this
    · exact this.1
    · exact this
  have hs := stk_same (fun _ _ h => h) hf (keep_ends (looks_keep h) hr he)
  have hr' := ends_reach hr he
  have key : ∀ a, Allocated s' a → Allocated s a → ∃ o o' : Obj α, s.mem[a]? = some (some o) ∧ s'.mem[a]? = some (some o') ∧
      o'.kind = o.kind ∧ o'.size = o.size ∧ o'.cells = o.cells := by
    rintro a ⟨o', h'⟩ ⟨o, h1⟩
    obtain ⟨o0, g1, g2⟩ := (hf.2.2 a (List.getElem?_eq_some_iff.1 h1).1).2 o' h'
    exact ⟨o0, o', g1, h', g2⟩
  refine ⟨hs, fun a ha => ?_⟩
  induction ha with
  | @var v a hv hva => exact key a (no_premature_free hr' a (.inl ⟨v, hs ▸ hv, hva⟩)) (no_premature_free hr a (.inl ⟨v, hv, hva⟩))
  | @elem b a hb hp ih =>
    obtain ⟨o, o', h1, h2, -, -, h3⟩ := ih
    refine key a (no_premature_free hr' a (.inr ⟨b, o', h2, ?_⟩)) (no_premature_free hr a (.inr ⟨b, hp⟩))
    obtain ⟨p, g1, g2⟩ := hp
    rw [h1] at g1
    cases g1
    rw [h3]
    exact g2

attribute [local instance] intEnv

/-- The statement ends, as computed. -/
theorem ends_of {st : Stmt Int} {s : State Int} (h : (match run st s with | .ok _ _ | .thrown _ _ => true | _ => false) = true) : ∃ s', Ends st s s' := by
  split at h
  · rename_i hr
    exact ⟨_, .inl hr⟩
  · rename_i hr
    exact ⟨_, .inr ⟨_, hr⟩⟩
  · cases h

/-- Lists in lists, with an array in a map: comparing, searching and printing end, and the strings inside are held. -/
example : Reach (final progPrint) ∧ (∃ s', Ends (.less intNumbers 9 0 1) (final progPrint) s') ∧ (∃ s', Ends (.find intNumbers 9 0 1) (final progPrint) s') ∧
    (∃ s', Ends (.print inferInstance intPrinter 9 2) (final progPrint) s') ∧ ∃ b a, Points (final progPrint) b a ∧ InVars (final progPrint) a := by
  have h1 : (final progPrint).stk[0]? = some (.arr 0) := by decide +kernel
  obtain ⟨o, ho, hc⟩ := obj_with (fun o => o.cells[1]? = some (.var (.arr 1))) (final progPrint).mem[0]? (by decide +kernel)
  have hp : Points (final progPrint) 0 1 := ⟨o, ho, _, List.mem_of_getElem? hc, .inl ⟨_, rfl, .inl rfl⟩⟩
  exact ⟨reach_exec progPrint .start (by decide +kernel), ends_of (by decide +kernel), ends_of (by decide +kernel), ends_of (by decide +kernel),
    0, 1, hp, .elem (.var (List.mem_of_getElem? h1) (.inl rfl)) hp⟩

/-- `x = cdouble(…); x.push(cdouble(…)); y = x[0];` -/
def progThrow : List (Stmt Int) := [.decl (.num .cdouble 5), .push 0 (.num .cdouble 6), .decl (.elem 0 0)]

/-- Printing a reference to an element of an array of `cdouble` throws; the array is as before. -/
example : Reach (final progThrow) ∧ ∃ s', (∃ e, run (.print inferInstance intPrinter 9 1) (final progThrow) = .thrown e s') ∧ InVarsSame (final progThrow) s' := by
  have hr : Reach (final progThrow) := reach_exec progThrow .start (by decide +kernel)
  have : ∃ e s', run (.print inferInstance intPrinter 9 1) (final progThrow) = .thrown e s' := by
    have h : (match run (.print inferInstance intPrinter 9 1) (final progThrow) with | .thrown _ _ => true | _ => false) = true := by decide +kernel
    split at h
    · rename_i hr
      exact ⟨_, _, hr⟩
    · cases h
  obtain ⟨e, s', h⟩ := this
  exact ⟨hr, s', ⟨e, h⟩, looking_changes_nothing hr (st := .print inferInstance intPrinter 9 1) trivial (.inr ⟨e, h⟩)⟩

/-- Programs that sort, compare and print reach states with arrays that are referred to (`no_premature_free`). -/
def progLooks : List (Stmt Int) := progSort ++ [.sort intNumbers 5 1, .less intNumbers 5 1 4, .find intNumbers 5 4 1, .print inferInstance intPrinter 9 4]

example : Reach (final progLooks) ∧ ∃ a, Referred (final progLooks) a ∧ (final progLooks).stk[4]? = some (.arr a) := by
  have h : ∃ a, (final progLooks).stk[4]? = some (.arr a) := by
    have h : (match (final progLooks).stk[4]? with | some (.arr _) => true | _ => false) = true := by decide +kernel
    split at h
    · rename_i hr
      exact ⟨_, hr⟩
    · cases h
  obtain ⟨a, h⟩ := h
  exact ⟨reach_exec progLooks .start (by decide +kernel), a, .inl ⟨_, List.mem_of_getElem? h, .inl rfl⟩, h⟩

end Libube.MemProps

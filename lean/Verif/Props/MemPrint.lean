import Verif.Lemmas.MemPrintRun
import Verif.Props.MemComplex

/-! # Printing in memory (C168) -/

namespace Libube.MemProps

open Mem MemSpec CString

variable {α : Type}

attribute [local instance] intEnv

theorem standsFor_deno {mem : List (Option (Obj α))} {v w : V α} (h : StandsFor mem v w) (hw : ¬ w.IsRef) : Deno mem v w := by
  rcases h with ⟨rfl, -⟩ | ⟨a, i, o, rfl, h1, h2⟩
  · exact .self hw
  · have hIs : Is mem a o.kind o.size o.cells := ⟨o.rc, h1⟩
    rcases h2 with ⟨h3, h4⟩ | ⟨h3, k, h4⟩ | ⟨x, h3, h4, rfl⟩
    · exact .var hIs (.inl h3) h4 rfl hw
    · exact .var hIs (.inr h3) h4 rfl hw
    · exact .num hIs h3.1 h3.2 h4

/-- Printing a variable, to any depth. -/
theorem print_prints [Env α] [DecidableEq α] (p : Printer α) {s : State α} (hr : Reach s) {S : Addr → Prop} (hf : Fine s.mem S) {m : Nat} {v w : V α}
    (hm : s.stk[m]? = some v) (hv : StandsFor s.mem v w) (hw : FineVar S w) (n : Nat) : Prints p s.mem w n 0 (print p n m) s := by
  obtain ⟨own, hi⟩ := reach_inv hr
  have hl : Alive v s.mem := fun a ha => hi.stk_live (mem_stkPtrs hm (by simp [ha]))
  have hd := standsFor_deno hv hw.plain
  have e : (readLoc (.slot m) >>= fun v => copyV v) s = .ok v ⟨bump v s.mem, s.stk⟩ := by
    have : readLoc (.slot m) s = .ok v s := by simp [readLoc, hm]
    rw [bind_eq this]
    exact copy_bump hl
  have := copy_prints (mem := s.mem) (stk := s.stk) (format_tot p S n) e hf hi.live hd hl hw
  rcases this with ⟨d, h1, h2, h3⟩ | ⟨h3, h1⟩
  · refine .inl ⟨d, h1, h2, ?_⟩
    rw [← h3]
    unfold print
    simp only [bind_run, M.bind]
    cases readLoc (.slot m) s with
    | ok b t => cases copyV b t <;> rfl
    | _ => rfl
  · refine .inr ⟨?_, h1⟩
    rw [← h3]
    unfold print
    simp only [bind_run, M.bind]
    cases readLoc (.slot m) s with
    | ok b t => cases copyV b t <;> rfl
    | _ => rfl

/-- Printing nested data writes the text of the data, which depends neither on the places of the arrays (but for
    complex numbers of double precision) nor on what shares them, and leaves every variable, every array and every count as it was.
    Missing: views, and data that are not initialised. -/
theorem print_partial [Env α] [DecidableEq α] (p : Printer α) {s : State α} (hr : Reach s) {m : Nat} {d : Data α} (h : IsShown s m d) {n : Nat}
    (hn : d.depth ≤ n) : print p n m s = .ok (d.text p 0) s := by
  obtain ⟨v, w, h1, h2, h3⟩ := h
  have hw : FineVar (fun a => ∃ d, IsData s.mem (.arr a) d) w := by
    cases w with
    | nil => trivial
    | num k x => cases h3; assumption
    | arr a => exact ⟨d, h3⟩
    | bad k => cases h3
    | ref b j => cases h3
  rcases print_prints p hr (data_fine s.mem) h1 h2 hw n with ⟨d', g1, -, g3⟩ | ⟨-, g1⟩
  · rw [data_unique h3 g1]
    exact g3
  · exact absurd ⟨d, h3, hn⟩ g1

/-- The printer of the examples. -/
def intPrinter : Printer Int := ⟨fun _ x => [x.toNat.toUInt8], fun a i => [a.toUInt8, i.toUInt8]⟩

/-- `x[0] = 1; x[1] = "A"; y = x.copy(); x[2] = y; x[3] = x[2]; z["A"] = y;` -/
def progPrint : List (Stmt Int) :=
  [.decl .nil, .setElem 0 0 (.num .int 1), .setElem 0 1 (.str [65]), .decl .nil, .assign 1 (.copy 0), .setElem 0 2 (.name 1), .setElem 0 3 (.elem 0 2),
    .decl .nil, .setKey 2 (.str [65]) (.name 1)]

theorem obj_with (P : Obj Int → Prop) [DecidablePred P] (x : Option (Option (Obj Int)))
    (h : (match x with | some (some o) => decide (P o) | _ => false) = true) : ∃ o, x = some (some o) ∧ P o := by
  split at h
  · exact ⟨_, rfl, of_decide_eq_true h⟩
  · cases h

/-- The strings of `progPrint`. -/
theorem progPrint_string (a : Addr) (h : (match (final progPrint).mem[a]? with
    | some (some o) => decide (o.kind = .char ∧ o.cells.take 2 = [.raw (some 65), .raw (some 0)]) | _ => false) = true) :
    IsData (final progPrint).mem (.arr a) (.str [65]) := by
  obtain ⟨o, ho, hk, hc⟩ := obj_with (fun o => o.kind = .char ∧ o.cells.take 2 = [.raw (some 65), .raw (some 0)]) _ h
  refine .str ho hk (by decide) fun i x hi => ?_
  have : (o.cells.take 2)[i]? = some (.raw (some x)) := by
    rw [hc]
    match i with
    | 0 => cases hi; rfl
    | 1 => cases hi; rfl
    | i + 2 => simp at hi
  rw [List.getElem?_take] at this
  split at this
  · exact this
  · cases this

/-- The array of vars at place 2 of `progPrint`. -/
theorem progPrint_inner : IsData (final progPrint).mem (.arr 2) (.list [.num .int 1, .str [65]]) := by
  have h1 : IsData (final progPrint).mem (.arr 1) (.str [65]) := progPrint_string 1 (by decide +kernel)
  obtain ⟨o, ho, hk, hn, hc⟩ : ∃ o, (final progPrint).mem[2]? = some (some o) ∧ o.kind = .var ∧ o.size = 2 ∧
      o.cells.take 2 = [.var (.num .int 1), .var (.arr 1)] :=
    obj_with (fun o => o.kind = .var ∧ o.size = 2 ∧ o.cells.take 2 = [.var (.num .int 1), .var (.arr 1)]) _ (by decide +kernel)
  have h0 : o.cells[0]? = some (.var (.num .int 1)) := by
    have : (o.cells.take 2)[0]? = some (.var (.num .int 1)) := by rw [hc]; rfl
    simpa [List.getElem?_take] using this
  have h2 : o.cells[1]? = some (.var (.arr 1)) := by
    have : (o.cells.take 2)[1]? = some (.var (.arr 1)) := by rw [hc]; rfl
    simpa [List.getElem?_take] using this
  refine .list (v := fun i => if i = 0 then .num .int 1 else .arr 1) ho hk hn (fun i hi => ?_) fun i d hd => ?_
  · match i with
    | 0 => exact h0
    | 1 => exact h2
    | i + 2 => simp at hi
  · match i with
    | 0 => cases hd; exact .num ⟨⟨by decide, by decide⟩, by decide⟩
    | 1 => cases hd; exact h1
    | i + 2 => simp at hd

example : ∃ d : Data Int, Reach (final progPrint) ∧ IsShown (final progPrint) 1 d ∧ d.depth ≤ 5 ∧ d.text intPrinter 0 =
    [91, 10, 32, 32, 1, 44, 10, 32, 32, 34, 65, 34, 10, 93] :=
  ⟨_, reach_exec progPrint .start (by decide +kernel), ⟨.arr 2, .arr 2, by decide +kernel, .inl ⟨rfl, by simp⟩, progPrint_inner⟩, by simp [Data.depth],
    by simp [Data.text, block, joined, line, intPrinter]⟩

/-- The map `z` prints its key and its value. -/
example : IsShown (final progPrint) 2 (.map [(.str [65], .list [.num .int 1, .str [65]])]) ∧
    (Data.map [(.str [65], .list [.num .int 1, .str [65]])]).text intPrinter 0 =
      [123, 10, 32, 32, 34, 65, 34, 58, 32, 91, 10, 32, 32, 32, 32, 1, 44, 10, 32, 32, 32, 32, 34, 65, 34, 10, 32, 32, 93, 10, 125] := by
  constructor
  · obtain ⟨o, ho, hk, hn, hc⟩ := obj_with (fun o => o.kind = .pair ∧ o.size = 1 ∧ o.cells.take 1 = [.pair (.arr 3) (.arr 2)])
      (final progPrint).mem[4]? (by decide +kernel)
    have h0 : o.cells[0]? = some (.pair (.arr 3) (.arr 2)) := by
      have : (o.cells.take 1)[0]? = some (.pair (.arr 3) (.arr 2)) := by rw [hc]; rfl
      simpa [List.getElem?_take] using this
    refine ⟨.arr 4, .arr 4, by decide +kernel, .inl ⟨rfl, by simp⟩, ?_⟩
    refine .map (u := fun _ => .arr 3) (v := fun _ => .arr 2) ho hk hn (fun i hi => ?_) (fun i d hd => ?_) fun i d hd => ?_
    · obtain rfl : i = 0 := by simpa using hi
      exact h0
    · match i with
      | 0 => cases hd; exact progPrint_string 3 (by decide +kernel)
      | i + 1 => simp at hd
    · match i with
      | 0 => cases hd; exact progPrint_inner
      | i + 1 => simp at hd
  · simp [Data.text, block, joined, line, intPrinter]

/-- Printing what is initialised has two outcomes: the text of the data, with everything as it was, or no end. -/
theorem print_or_endless [Env α] [DecidableEq α] (p : Printer α) {s : State α} (hr : Reach s) {S : Addr → Prop} (hf : Fine s.mem S) {m : Nat} {v w : V α}
    (hm : s.stk[m]? = some v) (hv : StandsFor s.mem v w) (hw : FineVar S w) :
    (∃ d, IsShown s m d ∧ ∀ n, d.depth ≤ n → print p n m s = .ok (d.text p 0) s) ∨
      ((∀ n, print p n m s = .diverge) ∧ ¬ ∃ d, IsShown s m d) := by
  by_cases h : ∃ d, IsShown s m d
  · obtain ⟨d, h⟩ := h
    exact .inl ⟨d, h, fun n hn => print_partial p hr h hn⟩
  · refine .inr ⟨fun n => ?_, h⟩
    rcases print_prints p hr hf hm hv hw n with ⟨d, g1, -, -⟩ | ⟨g1, -⟩
    · exact absurd ⟨d, v, w, hm, hv, g1⟩ h
    · exact g1

theorem within_depth [Env α] {mem : List (Option (Obj α))} {a b : Addr} {d : Data α} (h : IsData mem (.arr a) d) (hw : Within mem a b) :
    ∃ d', IsData mem (.arr b) d' ∧ d'.depth < d.depth := by
  obtain ⟨o, i, h1, h2, ⟨h3, h4⟩ | ⟨h3, u, v, h4, h5⟩⟩ := hw
  · obtain ⟨ds, rfl, g3, g4⟩ := data_var h h1 h3
    obtain ⟨y, hy⟩ : ∃ y, ds[i]? = some y := ⟨_, List.getElem?_eq_getElem (by omega)⟩
    refine ⟨y, g4 i y _ hy h4, ?_⟩
    have hp := data_depth_pos (Data.list ds)
    have := (depth_list_le (n := (Data.list ds).depth - 1)).1 (by omega) y (List.mem_of_getElem? hy)
    omega
  · obtain ⟨ds, rfl, g3, g4⟩ := data_pair h h1 h3
    obtain ⟨y, hy⟩ : ∃ y, ds[i]? = some y := ⟨_, List.getElem?_eq_getElem (by omega)⟩
    have hp := data_depth_pos (Data.map ds)
    have h7 := (depth_map_le (n := (Data.map ds).depth - 1)).1 (by omega) y (List.mem_of_getElem? hy)
    have h6 := g4 i y _ _ hy h4
    rcases h5 with rfl | rfl
    · exact ⟨y.1, h6.1, by omega⟩
    · exact ⟨y.2, h6.2, by omega⟩

theorem path_depth [Env α] {mem : List (Option (Obj α))} {a b : Addr} {d : Data α} (h : IsData mem (.arr a) d) (hw : Relation.TransGen (Within mem) a b) :
    ∃ d', IsData mem (.arr b) d' ∧ d'.depth < d.depth := by
  induction hw with
  | single hw => exact within_depth h hw
  | tail _ hw ih =>
    obtain ⟨d1, h1, h2⟩ := ih
    obtain ⟨d2, h3, h4⟩ := within_depth h1 hw
    exact ⟨d2, h3, by omega⟩

/-- Printing an array that contains itself, or leads to one that does, never ends. -/
theorem print_cycle_endless [Env α] [DecidableEq α] (p : Printer α) {s : State α} (hr : Reach s) {S : Addr → Prop} (hf : Fine s.mem S) {m : Nat} {v : V α} {a c : Addr}
    (hm : s.stk[m]? = some v) (hv : StandsFor s.mem v (.arr a)) (ha : S a) (hac : Relation.ReflTransGen (Within s.mem) a c)
    (hc : Relation.TransGen (Within s.mem) c c) (n : Nat) : print p n m s = .diverge := by
  rcases print_prints p hr hf hm hv (show FineVar S (.arr a : V α) from ha) n with ⟨d, g1, -, -⟩ | ⟨g1, -⟩
  · exfalso
    have hc' : ∃ d', IsData s.mem (.arr c) d' := by
      rcases Relation.reflTransGen_iff_eq_or_transGen.1 hac with rfl | h
      · exact ⟨d, g1⟩
      · obtain ⟨d', h1, -⟩ := path_depth g1 h
        exact ⟨d', h1⟩
    obtain ⟨d', h1⟩ := hc'
    obtain ⟨d2, h2, h3⟩ := path_depth h1 hc
    rw [data_unique h1 h2] at h3
    omega
  · exact g1

/-- `x[0] = 1; x[1] = x;` -/
def progLoop : List (Stmt Int) := [.decl .nil, .setElem 0 0 (.num .int 1), .setElem 0 1 (.name 0)]

theorem progLoop_fine : Fine (final progLoop).mem (· = 0) ∧ Within (final progLoop).mem 0 0 := by
  obtain ⟨o, ho, hk, hn, hc⟩ : ∃ o, (final progLoop).mem[0]? = some (some o) ∧ o.kind = .var ∧ o.size = 2 ∧
      o.cells.take 2 = [.var (.num .int 1), .var (.arr 0)] :=
    obj_with (fun o => o.kind = .var ∧ o.size = 2 ∧ o.cells.take 2 = [.var (.num .int 1), .var (.arr 0)]) _ (by decide +kernel)
  have h0 : o.cells[0]? = some (.var (.num .int 1)) := by
    have : (o.cells.take 2)[0]? = some (.var (.num .int 1)) := by rw [hc]; rfl
    simpa [List.getElem?_take] using this
  have h2 : o.cells[1]? = some (.var (.arr 0)) := by
    have : (o.cells.take 2)[1]? = some (.var (.arr 0)) := by rw [hc]; rfl
    simpa [List.getElem?_take] using this
  refine ⟨?_, o, 1, ho, by omega, .inl ⟨hk, h2⟩⟩
  rintro a rfl
  refine ⟨o, ho, fun _ i hi => ?_, fun h => ?_, fun h => ?_, fun h => absurd hk h.1⟩
  · rw [hn] at hi
    match i with
    | 0 => exact ⟨_, h0, ⟨⟨by decide, by decide⟩, by decide⟩⟩
    | 1 => exact ⟨_, h2, rfl⟩
    | i + 2 => omega
  · rw [hk] at h
    cases h
  · rw [hk] at h
    cases h

example : Reach (final progLoop) ∧ Fine (final progLoop).mem (· = 0) ∧ StandsFor (final progLoop).mem (.arr 0) (.arr 0) ∧
    (final progLoop).stk[0]? = some (.arr 0) ∧ Relation.TransGen (Within (final progLoop).mem) 0 0 :=
  ⟨reach_exec progLoop .start (by decide +kernel), progLoop_fine.1, .inl ⟨rfl, by simp⟩, by decide +kernel, .single progLoop_fine.2⟩

/-- C168: printing a variable ends. -/
def PrintEnds : Prop := ∀ (s : State Int) (m : Nat), Reach s → m < s.stk.length → ∃ n t s', print intPrinter n m s = .ok t s'

/-- It does not for `x[0] = 1; x[1] = x;`. -/
theorem print_self_endless : ¬ PrintEnds := by
  intro h
  obtain ⟨n, t, s', h1⟩ := h (final progLoop) 0 (reach_exec progLoop .start (by decide +kernel)) (by decide +kernel)
  rw [print_cycle_endless intPrinter (reach_exec progLoop .start (by decide +kernel)) progLoop_fine.1 (m := 0) (v := .arr 0) (a := 0) (c := 0) (by decide +kernel)
    (.inl ⟨rfl, by simp⟩) rfl .refl (.single progLoop_fine.2) n] at h1
  cases h1

/-- Two or more complex numbers of double precision are not printed: the text is that of their addresses. -/
theorem complex_addresses [Env α] [DecidableEq α] (p : Printer α) {s : State α} (hr : Reach s) {m : Nat} {a : Addr} {xs : List α} (h : IsShown s m (.cplx a xs))
    (h1 : xs.length ≠ 1) (n : Nat) : print p (n + 1) m s = .ok (block 0 ((List.range xs.length).map (p.ptr a))) s := by
  rw [print_partial p hr h (by simp [Data.depth]), Data.text]
  intro x hx
  rw [hx] at h1
  simp at h1

attribute [local instance] cEnv in
example : ∃ s, Reach s ∧ IsShown s 0 (.cplx 0 [((1, 1) : Int × Int), (2, 2), (3, 3)]) := by
  obtain ⟨a, o, h1, h2, h3⟩ := progZ_contents
  have : (cfinal progZ).stk[0]? = some (.arr 0) := by rw [progZ_stk]; rfl
  rw [this] at h1
  cases h1
  exact ⟨cfinal progZ, progZ_reach, .arr 0, .arr 0, this, .inl ⟨rfl, by simp⟩, .cplx h2 h3⟩

#print axioms print_partial
#print axioms print_or_endless
#print axioms print_cycle_endless
#print axioms print_self_endless
#print axioms complex_addresses

end Libube.MemProps

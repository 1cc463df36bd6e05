import Verif.Lemmas.MemShare
import Verif.Props.MemArray

/-! # Sharing and copying (C47, C48), storage and elements of arrays (C82–C85) -/

namespace Libube.MemProps

open Mem MemSpec

variable {α : Type}

attribute [local instance] intEnv

/-! ## C47 -/

/-- Two variables that are the same array stay the same array whatever is done (except assigning another var to
    one of them): what is done to the elements of one is seen in the other. -/
theorem same_array_later [Env α] {s s' : State α} {n m : Nat} (h : SameArray s n m) (hl : Later n m s s') :
    SameArray s' n m ∧ ∀ k cs, Elems s' n k cs ↔ Elems s' m k cs := by
  obtain ⟨a, h1, h2⟩ := h
  have key : s'.stk[n]? = some (.arr a) ∧ s'.stk[m]? = some (.arr a) := by
    induction hl with
    | here => exact ⟨h1, h2⟩
    | step _ hn hm he h3 h4 ih => exact ⟨run_spares ih.1 hn he h3, run_spares ih.2 hm he h4⟩
  obtain ⟨h3, h4⟩ := key
  refine ⟨⟨a, h3, h4⟩, fun k cs => ?_⟩
  constructor
  · rintro ⟨b, p, hb, hp⟩
    rw [h3] at hb
    cases hb
    exact ⟨a, p, h4, hp⟩
  · rintro ⟨b, p, hb, hp⟩
    rw [h4] at hb
    cases hb
    exact ⟨a, p, h3, hp⟩

/-- After `var y = x` both are the same array, and stay the same array. -/
theorem initialisation_shares [Env α] {s : State α} (hr : Reach s) {n : Nat} {a : Addr} (h : s.stk[n]? = some (.arr a)) :
    ∃ s1, run (.decl (.name n)) s = .ok () s1 ∧ ∀ s', Later n s.stk.length s1 s' →
      SameArray s' n s.stk.length ∧ ∀ k cs, Elems s' n k cs ↔ Elems s' s.stk.length k cs := by
  obtain ⟨o, ho⟩ := no_premature_free hr a (.inl ⟨.arr a, List.mem_of_getElem? h, .inl rfl⟩)
  refine ⟨{ upd s a { o with rc := o.rc + 1 } with stk := s.stk ++ [.arr a] },
    bind_eq (m := eval (.name n)) ((bind_eq (readSlot h)).trans (copyV_run rfl ho)), fun s' hl => ?_⟩
  exact same_array_later ⟨a, slot_append h, by simp⟩ hl

/-- The same after `y = x`, for a variable `y` that is no reference. -/
theorem assignment_shares [Env α] {s s1 s' : State α} {n m : Nat} {a : Addr} {t : V α} (h : s.stk[n]? = some (.arr a))
    (hm : s.stk[m]? = some t) (ht : ∀ b i, t ≠ .ref b i) (hr : run (.assign m (.name n)) s = .ok () s1) (hl : Later n m s1 s') :
    SameArray s' n m ∧ ∀ k cs, Elems s' n k cs ↔ Elems s' m k cs :=
  same_array_later (assign_same h hm ht hr) hl

/-- `x` is 1 2 3; `var y = x; y[1] = 7; x.push(8);` -/
def progShare : List (Stmt Int) := prog123 ++ [.decl (.name 0), .setElem 1 1 (.num .int 7), .push 0 (.num .int 8)]

/-- `y` is 4 5 and `x` is 1 2 3; `y = x;` -/
example : ∃ s1, run (.assign 1 (.name 0)) (final (prog123 ++ [.decl (.num .int 4), .push 1 (.num .int 5)])) = .ok () s1 ∧
    s1.stk = [.arr 0, .arr 0] :=
  ⟨final (prog123 ++ [.decl (.num .int 4), .push 1 (.num .int 5), .assign 1 (.name 0)]), by decide +kernel, by decide +kernel⟩

example : ∃ s1, run (.decl (.name 0)) (final prog123) = .ok () s1 ∧ Later 0 1 s1 (final progShare) := by
  refine ⟨final (prog123 ++ [.decl (.name 0)]), by decide +kernel, ?_⟩
  refine .step (s1 := final (prog123 ++ [.decl (.name 0), .setElem 1 1 (.num .int 7)])) (st := .push 0 (.num .int 8)) ?_
    (by simp [Spares, exps, Writes]) (by simp [Spares, exps, Writes]) (.inl (by decide +kernel)) (by decide +kernel) (by decide +kernel)
  exact .step (.here _) (st := .setElem 1 1 (.num .int 7)) (by simp [Spares, exps, Writes]) (by simp [Spares, exps, Writes]) (.inl (by decide +kernel))
    (by decide +kernel) (by decide +kernel)

/-- A number assigned to an element of `y` is the element of `x`, for arrays of numbers that are the same. -/
theorem assigned_element_seen [Env α] {s : State α} (hr : Reach s) {n m i : Nat} {k j : Kind} {xs : List α} (x : α)
    (hk : Number k) (hj : Scalar j) (h : Contents s n k xs) (hs : SameArray s n m) (hi : i < xs.length) (hf : Fits xs) :
    ∃ s', run (.setElem m i (.num j x)) s = .ok () s' ∧ Contents s' n k (xs.set i (Env.conv j k x)) ∧
      Contents s' m k (xs.set i (Env.conv j k x)) := by
  obtain ⟨a, hn, hm⟩ := hs
  obtain ⟨b, o, hb, ho, he⟩ := h
  rw [hn] at hb
  cases hb
  have hf' : xs.length + 2 ≤ 2 ^ 30 := hf
  obtain ⟨s', h1, ⟨c, p, hc, hp, hpk, hps, hpe⟩, h3⟩ := set_element_partial hr (n := m) (i := i) x hk hj ⟨a, o, hm, ho, he⟩ (by omega)
  have hc' : s'.stk = s.stk := h3.1
  have hca : c = a := by
    rw [hc', hm] at hc
    cases hc
    rfl
  subst hca
  have hel : Elements p k (xs.set i (Env.conv j k x)) := by
    refine ⟨hpk, by rw [hps, List.length_set]; omega, fun q y hq => hpe q y ?_⟩
    rw [List.getElem?_set] at hq
    by_cases hqi : q = i
    · subst hqi
      simpa [hi] using hq
    · rw [if_neg (fun h => hqi h.symm)] at hq
      simp [hqi, hq]
  exact ⟨s', h1, ⟨c, p, by rw [hc']; exact hn, hp, hel⟩, ⟨c, p, by rw [hc']; exact hm, hp, hel⟩⟩

example : SameArray (final (prog123 ++ [.decl (.name 0)])) 0 1 ∧ Contents (final (prog123 ++ [.decl (.name 0)])) 0 .int [1, 2, 3] :=
  ⟨⟨0, by decide +kernel, by decide +kernel⟩,
    contents_of (a := 0) (o := ⟨.int, 3, 2, [.raw (some 1), .raw (some 2), .raw (some 3), .raw none, .raw none, .raw none, .raw none, .raw none]⟩)
    [1, 2, 3] (by decide +kernel) (by decide +kernel) (by decide) rfl⟩

theorem same_data_elems {s s1 : State α} {n : Nat} {k : Kind} {cs : List (Cell α)} (h : Elems s n k cs) (hd : SameData s s1)
    (o : Option (Obj α)) (v : V α) : Elems { mem := s1.mem ++ [o], stk := s1.stk ++ [v] } n k cs := by
  obtain ⟨a, p, h1, h2, h3, h4, h5⟩ := h
  obtain ⟨p', h6, h7, h8, h9⟩ := hd.2.2.1 a p h2
  refine ⟨a, p', slot_append (by rw [hd.1]; exact h1), ?_, h7.trans h3, h8.trans h4, fun i c hc => by rw [h9]; exact h5 i c hc⟩
  exact (List.getElem?_append_left (lt_of_alive h6)).trans h6

/-- C47, C48: `var y = x.copy()` makes a new array of the same type and size with the same elements, and `x` is
    as before.  For all element types but `cfloat` and `cdouble`. -/
theorem copy_elements_partial [Env α] {s : State α} (hr : Reach s) {n : Nat} {k : Kind} {cs : List (Cell α)}
    (hk : k ≠ .cfloat ∧ k ≠ .cdouble) (h : Elems s n k cs) (hf : cs.length + 1 ≤ 2 ^ 30) :
    ∃ s', run (.decl (.copy n)) s = .ok () s' ∧ Elems s' n k cs ∧ Elems s' s.stk.length k cs ∧
      Distinct s' n s.stk.length := by
  have h0 := h
  obtain ⟨a, o, h1, h2, rfl, h4, h5⟩ := h
  obtain ⟨s1, o', h6, h7, h8, h9, h10, rest, h11⟩ := copy_all hr h2 (by rw [h4]; exact hf) hk.1 hk.2
  refine ⟨_, bind_eq (m := eval (.copy n)) ((bind_eq (readSlot h1)).trans h6), same_data_elems h0 h7 _ _,
    ⟨s.mem.length, o', ?_, ?_, h8, h9.trans h4, fun i c hc => ?_⟩, ⟨a, s.mem.length, ?_, ?_, ?_⟩⟩
  · show (s1.stk ++ [.arr s.mem.length])[s.stk.length]? = _
    rw [h7.1]
    simp
  · show (s1.mem ++ [some o'])[s.mem.length]? = _
    rw [← h7.2.1]
    simp
  · have hi := (List.getElem?_eq_some_iff.1 hc).1
    rw [h11, List.getElem?_append_left (by simp; omega), List.getElem?_take, if_pos (by omega)]
    exact h5 i c hc
  · have := lt_of_alive h2
    omega
  · exact slot_append (by rw [h7.1]; exact h1)
  · show (s1.stk ++ [.arr s.mem.length])[s.stk.length]? = _
    rw [h7.1]
    simp

/-- `x.push("A"); x.push(5);` -/
def progVars : List (Stmt Int) := [.decl .nil, .push 0 (.str [65]), .push 0 (.num .int 5)]

theorem progVars_elems : Elems (final progVars) 0 .var [.var (.arr 0), .var (.num .int 5)] := by
  refine ⟨1, ⟨.var, 2, 1, [.var (.arr 0), .var (.num .int 5), .var .nil, .var .nil, .var .nil, .var .nil, .var .nil, .var .nil]⟩,
    by decide +kernel, by decide +kernel, rfl, rfl, fun i c hc => ?_⟩
  match i, hc with
  | 0, hc => simpa using hc
  | 1, hc => simpa using hc

theorem progVars_reach : Reach (final progVars) := reach_exec progVars .start (by decide +kernel)

example : Reach (final progVars) ∧ Elems (final progVars) 0 .var [.var (.arr 0), .var (.num .int 5)] :=
  ⟨progVars_reach, progVars_elems⟩

/-- What is done to the elements of one of two arrays, whatever they contain, is not seen in the other, and they
    stay two arrays. -/
theorem separate_arrays [Env α] {s s' : State α} (hr : Reach s) {n m : Nat} (hd : Distinct s n m) {st : Stmt α}
    (ht : Through n s st) (he : Ends st s s') :
    Distinct s' n m ∧ ∀ k cs, Elems s m k cs → Elems s' m k cs := by
  obtain ⟨a, b, hab, hn, hm⟩ := hd
  obtain ⟨o, ho⟩ := no_premature_free hr b (.inl ⟨.arr b, List.mem_of_getElem? hm, .inl rfl⟩)
  let f : Fr α := ⟨fun q v => (q = n ∧ v = .arr a) ∨ (q = m ∧ v = .arr b), fun c => c = b, s⟩
  have hi : f.Inv s := by
    refine ⟨?_, Nat.le_refl _, ?_⟩
    · rintro q v (⟨hq, hv⟩ | ⟨hq, hv⟩)
      · rw [hq, hv]; exact hn
      · rw [hq, hv]; exact hm
    · intro c hc
      have hc : c = b := hc
      rw [hc]
      exact ⟨lt_of_alive ho, fun o ho => ⟨o, ho, rfl, rfl, rfl⟩⟩
  have h1 := through_frame hi (n := n) (a := a) (.inl ⟨rfl, rfl⟩) hab ht
  have h2 : f.Inv s' ∧ Reach s' := by
    rcases he with he | ⟨e, he⟩
    · rw [he] at h1
      exact ⟨h1.1, hr.ok he⟩
    · rw [he] at h1
      exact ⟨h1, hr.thrown he⟩
  have hn' := h2.1.1 n (.arr a) (.inl ⟨rfl, rfl⟩)
  have hm' := h2.1.1 m (.arr b) (.inr ⟨rfl, rfl⟩)
  refine ⟨⟨a, b, hab, hn', hm'⟩, ?_⟩
  rintro k cs ⟨b', p, hb', hp, hk, hz, hc⟩
  rw [hm] at hb'
  cases hb'
  obtain ⟨o', ho'⟩ := no_premature_free h2.2 b (.inl ⟨.arr b, List.mem_of_getElem? hm', .inl rfl⟩)
  obtain ⟨p', hp', e1, e2, e3⟩ := (h2.1.2.2 b rfl).2 o' ho'
  have hp'' : s.mem[b]? = some (some p') := hp'
  rw [hp] at hp''
  cases hp''
  exact ⟨b, o', hm', ho', e1.trans hk, e2.trans hz, fun i c h => by rw [e3]; exact hc i c h⟩

/-- `var y = x.copy(); y[0] = "B"; y[2] = x[1];` -/
example : Distinct (final (progVars ++ [.decl (.copy 0)])) 1 0 ∧
    Through 1 (final (progVars ++ [.decl (.copy 0)])) (.setElem 1 0 (.str [66])) ∧
    Through 1 (final (progVars ++ [.decl (.copy 0)])) (.setElem 1 2 (.elem 0 1)) ∧
    Ends (.setElem 1 2 (.elem 0 1)) (final (progVars ++ [.decl (.copy 0)])) (final (progVars ++ [.decl (.copy 0), .setElem 1 2 (.elem 0 1)])) :=
  ⟨⟨2, 1, by decide, by decide +kernel, by decide +kernel⟩, .setElem 0 _ trivial,
    .setElem 2 _ ⟨1, ⟨.var, 2, 1, [.var (.arr 0), .var (.num .int 5), .var .nil, .var .nil, .var .nil, .var .nil, .var .nil, .var .nil]⟩, 1, rfl,
      by decide +kernel, by decide +kernel, by decide⟩, .inl (by decide +kernel)⟩

/-- The copy is shallow: after `var y = x.copy(); var z = y[0]; z.push("B")` the string in `x` has changed, too. -/
theorem copy_is_shallow : ∃ sts : List (Stmt Int), sts = [.decl (.copy 0), .decl (.at 1 0), .push 2 (.num .char 66)] ∧
    (final (progVars ++ sts)).mem[0]? = some (some ⟨.char, 2, 2, [.raw (some 65), .raw (some 66), .raw (some 0), .raw none,
      .raw none, .raw none, .raw none, .raw none]⟩) ∧ Elems (final (progVars ++ sts)) 0 .var [.var (.arr 0), .var (.num .int 5)] := by
  refine ⟨_, rfl, by decide +kernel, 1, ⟨.var, 2, 1, [.var (.arr 0), .var (.num .int 5), .var .nil, .var .nil, .var .nil, .var .nil, .var .nil, .var .nil]⟩,
    by decide +kernel, by decide +kernel, rfl, rfl, fun i c hc => ?_⟩
  match i, hc with
  | 0, hc => simpa using hc
  | 1, hc => simpa using hc

/-! ## C48 -/

/-- Copying an array of complex numbers throws. -/
theorem copy_complex_throws [Env α] {s : State α} {n : Nat} {a : Addr} {o : Obj α} (h : s.stk[n]? = some (.arr a))
    (ho : s.mem[a]? = some (some o)) (hk : o.kind = .cfloat ∨ o.kind = .cdouble) (hf : o.size + 1 ≤ 2 ^ 30) :
    run (.decl (.copy n)) s = .thrown (.error "Heap::copy(): Unknown type") s := by
  obtain ⟨cells, h1, -⟩ := newObj_run (α := α) o.kind o.size hf
  have hc : copyObj o = .thrown (.error "Heap::copy(): Unknown type") := by
    unfold copyObj
    rw [h1, Outcome.bind_ok]
    rcases hk with hk | hk <;> rw [hk]
  have h2 : eval (.copy n) s = .thrown (.error "Heap::copy(): Unknown type") s := by
    refine (bind_eq (readSlot h)).trans ?_
    unfold copy
    rw [bind_eq (heapOf_arr a s)]
    simp only
    rw [bind_eq (obj_eq ho), hc]
    rfl
  show M.bind (eval (.copy n)) _ s = _
  unfold M.bind
  rw [h2]

/-- `var x = cdouble(1);` -/
def progCplx : List (Stmt Int) := [.decl (.num .cdouble 1)]

/-- C48. -/
def CopyWorks : Prop := ∀ (s : State Int) (n : Nat) (k : Kind) (cs : List (Cell Int)), Reach s → Elems s n k cs →
  ∃ s', run (.decl (.copy n)) s = .ok () s' ∧ Elems s' s.stk.length k cs

theorem copy_complex_fails : ¬ CopyWorks := by
  intro h
  obtain ⟨s', h1, -⟩ := h (final progCplx) 0 .cdouble [.raw (some 1)] (reach_exec progCplx .start (by decide +kernel))
    ⟨0, ⟨.cdouble, 1, 1, [.raw (some 1), .raw none, .raw none, .raw none, .raw none, .raw none, .raw none, .raw none]⟩,
      by decide +kernel, by decide +kernel, rfl, rfl, fun i c hc => by
        match i, hc with
        | 0, hc => simpa using hc⟩
  have h2 : run (.decl (.copy 0)) (final progCplx) = .thrown (.error "Heap::copy(): Unknown type") (final progCplx) := by decide +kernel
  rw [h2] at h1
  cases h1

/-! ## Elements and storage -/

/-- No element of an array, key or value, is a reference: a reference assigned to an element is replaced by what
    it refers to. -/
theorem cells_not_refs [Env α] {s : State α} (hr : Reach s) {a : Addr} {o : Obj α} (h : s.mem[a]? = some (some o)) (i : Nat) :
    (∀ b j, o.cells[i]? ≠ some (.var (.ref b j))) ∧
    (∀ k b j, o.cells[i]? ≠ some (.pair k (.ref b j))) ∧ ∀ v b j, o.cells[i]? ≠ some (.pair (.ref b j) v) := by
  have hn := reach_nice hr a o h
  refine ⟨fun b j hc => ?_, fun k b j hc => ?_, fun v b j hc => ?_⟩
  · cases hn.cell i (.ref b j) (.inl hc) trivial
  · cases hn.cell i (.ref b j) (.inr ⟨k, hc⟩) trivial
  · cases hn.key i (.ref b j) v hc trivial

example : Reach (final progVars) ∧ ∃ o, (final progVars).mem[1]? = some (some o) ∧ o.kind = .var :=
  ⟨progVars_reach, ⟨.var, 2, 1, [.var (.arr 0), .var (.num .int 5), .var .nil, .var .nil, .var .nil, .var .nil, .var .nil, .var .nil]⟩,
    by decide +kernel, rfl⟩

/-- The storage of every array holds all its elements, and the NUL of a string, for sizes up to 2^30. -/
theorem storage_suffices_partial [Env α] {s : State α} (hr : Reach s) {a : Addr} {o : Obj α} (h : s.mem[a]? = some (some o)) :
    (o.size < 2 ^ 30 → o.size ≤ o.cells.length) ∧ (o.kind = .char → o.size < 2 ^ 30 → o.size < o.cells.length) := by
  have hn := (reach_nice hr a o h).fits
  unfold Obj.need at hn
  constructor
  · intro hs
    split at hn <;> omega
  · intro hk hs
    rw [if_pos hk] at hn
    omega

/-- Every array can hold as many elements as it says. -/
def StorageSuffices : Prop := ∀ (s : State Int) (a : Addr) (o : Obj Int), Reach s → s.mem[a]? = some (some o) →
  o.size ≤ o.cells.length

/-- `x` is 1 2 3; `x.resize(1073741825)` obtains no memory: the size is computed in an `int`. -/
theorem huge_resize_unbacked : ¬ StorageSuffices := by
  intro h
  have h1 := h (final (prog123 ++ [.resize 0 (2 ^ 30 + 1)])) 0 ⟨.int, 2 ^ 30 + 1, 1, [.raw (some 1), .raw (some 2), .raw (some 3),
    .raw none, .raw none, .raw none, .raw none, .raw none]⟩
    (reach_exec (prog123 ++ [.resize 0 (2 ^ 30 + 1)]) .start (by decide +kernel)) (by decide +kernel)
  simp at h1

/-- Every element has the type of its array: numbers in arrays of numbers, vars in arrays of vars, pairs in maps. -/
theorem elements_typed [Env α] {s : State α} (hr : Reach s) {a : Addr} {o : Obj α} (h : s.mem[a]? = some (some o))
    {c : Cell α} (hc : c ∈ o.cells) :
    ((∃ x, c = .raw x) ↔ Number o.kind) ∧ ((∃ v, c = .var v) ↔ o.kind = .var) ∧ ((∃ k v, c = .pair k v) ↔ o.kind = .pair) := by
  obtain ⟨own, hi⟩ := reach_inv hr
  have := hi.typed a o h c hc
  unfold Number
  cases c with
  | raw x => exact ⟨by simpa [CellOk] using this, by simpa using this.1, by simpa using this.2⟩
  | var v =>
    have hk : o.kind = .var := this
    simp [hk]
  | pair k v =>
    have hk : o.kind = .pair := this
    simp [hk]

end Libube.MemProps

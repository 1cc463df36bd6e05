import Verif.Props.MemNil
import Verif.Props.MemVars
import Verif.Spec.MemAppend

/-! # presize and append (C110–C112) -/

namespace Libube.MemProps

open Mem MemSpec

variable {α : Type}

attribute [local instance] intEnv

/-! ## C110: presize -/

/-- What `presize` does to an array of numbers. -/
theorem presize_gen [Env α] {s : State α} (hr : Reach s) {n m : Nat} {k : Kind} {xs : List α} (hk : Number k) (h : Contents s n k xs)
    (hf : Fits xs) (hm : m + 2 ≤ 2 ^ 30) :
    ∃ s' c, run (.presize n m) s = .ok () s' ∧ Contents s' n k (presized k m xs) ∧ (k = .char → Terminated s' n) ∧ OnlyArray s s' n ∧
      Places s' n c ∧ ∀ j, j ≤ m → ∃ s2, run (.resize n j) s' = .ok () s2 ∧ Places s2 n c := by
  have hf : xs.length + 2 ≤ 2 ^ 30 := hf
  obtain ⟨a, ⟨o, ho, hh, hko, hrc⟩, hs⟩ := good_of_contents hr hk h
  obtain ⟨o1, o2, e, g, gk, gr, h1, hl⟩ := presize_run (m := m) hs ho hh rfl (by omega) (by omega)
  refine ⟨upd s a o2, o2.cells.length, e, ?_, fun hc => ?_, (only_upd _ _ _).onlyArray hs, ⟨a, o2, hs, upd_get ho _, rfl⟩, fun j hj => ?_⟩
  · refine ⟨a, o2, hs, upd_get ho _, gk.trans hko, by rw [presized_length]; exact g.size, ?_⟩
    rw [← hko]
    exact g.elem
  · exact ⟨a, o2, hs, upd_get ho _, (gk.trans hko).trans hc, by rw [g.size]; exact g.nul trivial ((gk.trans hko).trans hc)⟩
  · obtain ⟨c3, e3, -⟩ := resizeObj_run (o := o2) (m := j) g.num g.raw (by omega)
    refine ⟨_, (resize_arr (s := upd s a o2) hs).trans (heapResize_obj (upd_get ho _) e3), a, _, hs, upd_get (upd_get ho _) _, ?_⟩
    exact resizeObj_same h1 gk (by omega) e3 hj (by omega)

/-- C110: `x.presize(m)` leaves the elements of an array of numbers, and all else, as they were, also if `m` is smaller than
    the array; for strings `m` must not be smaller.  Resizing the array afterwards to any size up to `m` obtains no memory. -/
theorem presize_partial [Env α] {s : State α} (hr : Reach s) {n m : Nat} {k : Kind} {xs : List α} (hk : Number k) (h : Contents s n k xs)
    (hc : k ≠ .char ∨ xs.length ≤ m) (hf : Fits xs) (hm : m + 2 ≤ 2 ^ 30) :
    ∃ s' c, run (.presize n m) s = .ok () s' ∧ Contents s' n k xs ∧ (k = .char → Terminated s' n) ∧ OnlyArray s s' n ∧
      Places s' n c ∧ ∀ j, j ≤ m → ∃ s2, run (.resize n j) s' = .ok () s2 ∧ Places s2 n c := by
  have hp : presized k m xs = xs := by
    unfold presized
    rcases hc with hc | hc
    · rw [if_neg hc]
    · rw [List.set_eq_of_length_le hc, ite_self]
  have := presize_gen hr hk h hf hm
  rwa [hp] at this

/-- A string longer than `m` gets a NUL at place `m`: one character is lost. -/
theorem presize_string_shorter [Env α] {s : State α} (hr : Reach s) {n m : Nat} {xs : List α} (h : Contents s n .char xs)
    (hm : m < xs.length) (hf : Fits xs) :
    ∃ s', run (.presize n m) s = .ok () s' ∧ Contents s' n .char (xs.set m Env.nul) ∧ OnlyArray s s' n := by
  obtain ⟨s', c, h1, h2, -, h4, -⟩ := presize_gen (m := m) hr ⟨by decide, by decide⟩ h hf (by have : xs.length + 2 ≤ 2 ^ 30 := hf; omega)
  exact ⟨s', h1, h2, h4⟩

/-- [1,2,3] with room for 40, and with room for 2; "AB" with room for 2. -/
example : Reach (final prog123) ∧ Number .int ∧ Contents (final prog123) 0 .int [1, 2, 3] ∧ Fits [1, 2, 3] :=
  ⟨reach_exec prog123 .start prog123_ok, ⟨by decide, by decide⟩, prog123_contents, by simp [Fits]⟩

example : Reach (final progAB) ∧ Contents (final progAB) 0 .char [65, 66] ∧ 1 < [65, 66].length ∧ [65, 66].length ≤ 2 :=
  ⟨progAB_reach, progAB_contents, by decide, by decide⟩

/-- A number presized to two or more becomes an array of one. -/
theorem presize_number_wraps [Env α] (hc : ConvSame α) {s : State α} {n m : Nat} {k : Kind} (hk : Scalar k) {x : α}
    (h : s.stk[n]? = some (.num k x)) (hm2 : 2 ≤ m) (hm : m + 2 ≤ 2 ^ 30) :
    ∃ s', run (.presize n m) s = .ok () s' ∧ Contents s' n k [x] ∧ OnlyVar s s' n := by
  have hlt := (List.getElem?_eq_some_iff.1 h).1
  obtain ⟨o, hw, hh, hok, horc⟩ := wrap_num (m := m) hk.1 h (by omega) (by omega)
  rw [hc _ _ hk.2] at hh
  let s1 : State α := ⟨s.mem ++ [some o], s.stk.set n (.arr s.mem.length)⟩
  have hs1 : s1.stk[n]? = some (.arr s.mem.length) := List.getElem?_set_self hlt
  have hm1 : s1.mem[s.mem.length]? = some (some o) := by simp [s1]
  obtain ⟨o2, e2, g2, k2, -⟩ := resize_run (m := 1) hs1 hm1 hh (by norm_num)
  refine ⟨upd s1 s.mem.length o2, ?_, ⟨s.mem.length, o2, hs1, upd_get hm1 _, k2.trans hok, g2.size, ?_⟩, fun i hi => ?_, fun b hb => ?_⟩
  · show presize (.slot n) m s = _
    unfold presize
    refine (bind_eq (readSlot h)).trans ?_
    refine (bind_eq (sizeV_num k x s)).trans ?_
    have e1 : resize (.slot n) m s = .ok () s1 := by
      unfold resize
      rw [if_neg (by omega)]
      have hd : dereference (.slot n) s = .ok (.slot n) s := by
        unfold dereference
        exact (bind_eq (readSlot h)).trans rfl
      refine (bind_eq hd).trans ?_
      refine (bind_eq (readSlot h)).trans ?_
      simp only
      rw [if_pos (by omega)]
      exact hw
    exact (bind_eq e1).trans e2
  · exact g2.elem
  · exact List.getElem?_set_ne (Ne.symm hi)
  · rw [upd_other (by omega)]
    exact List.getElem?_append_left hb

/-- A number presized to less is left alone. -/
theorem presize_number_same [Env α] {s : State α} {n m : Nat} {k : Kind} {x : α} (h : s.stk[n]? = some (.num k x)) (hm : m ≤ 1) :
    run (.presize n m) s = .ok () s := by
  have e1 : ∀ i : Nat, i ≤ 1 → resize (.slot n) i s = .ok () s := by
    intro i hi
    unfold resize
    rw [if_neg (by omega)]
    have hd : dereference (.slot n) s = .ok (.slot n) s := by
      unfold dereference
      exact (bind_eq (readSlot h)).trans rfl
    refine (bind_eq hd).trans ?_
    refine (bind_eq (readSlot h)).trans ?_
    simp only
    rw [if_neg (by omega)]
    rfl
  show presize (.slot n) m s = _
  unfold presize
  refine (bind_eq (readSlot h)).trans ?_
  refine (bind_eq (sizeV_num k x s)).trans ?_
  exact (bind_eq (e1 m hm)).trans (e1 1 (Nat.le_refl _))

example : (final [.decl (.num .int 5)] : State Int).stk[0]? = some (.num .int 5) ∧ Number .int :=
  ⟨by decide +kernel, by decide, by decide⟩

/-- Resizing an array of vars made from nil. -/
theorem resizeObj_vars [Env α] {o : Obj α} (hk : o.kind = .var) (m : Nat) (hm : m + 1 ≤ 2 ^ 30) :
    ∃ cells, resizeObj o m = .ok { o with size := m, cells := cells } := by
  unfold resizeObj
  rw [if_neg (by rw [hk]; decide)]
  obtain ⟨c, hc, hl⟩ := Alloc.allocSize_least (m : Int) (by omega) (by omega)
  have hcm : (m : Int) ≤ c := hl.2.1
  rw [hc, Outcome.bind_ok]
  have ht : ∀ cells : List (Cell α), terminate o.kind cells m = .ok cells := fun cells => by
    unfold terminate
    rw [if_neg (by rw [hk]; decide)]
  unfold growCells
  split
  · rw [if_neg (by omega), Outcome.bind_ok, ht]
    exact ⟨_, rfl⟩
  · split
    · rw [Outcome.bind_ok, ht]
      exact ⟨_, rfl⟩
    · rw [Outcome.bind_ok, ht]
      exact ⟨_, rfl⟩

/-- Nil presized, even to 0, becomes an empty array of vars. -/
theorem presize_nil_array [Env α] {s : State α} {n m : Nat} (h : s.stk[n]? = some .nil) (hm : m + 2 ≤ 2 ^ 30) :
    ∃ s', run (.presize n m) s = .ok () s' ∧ Vars s' n [] ∧ OnlyVar s s' n := by
  have hlt := (List.getElem?_eq_some_iff.1 h).1
  obtain ⟨c1, e1⟩ := resizeObj_vars (o := (⟨.var, 0, 1, []⟩ : Obj α)) rfl m (by omega)
  let o : Obj α := ⟨.var, m, 1, c1⟩
  obtain ⟨c2, e2⟩ := resizeObj_vars (o := o) rfl 0 (by norm_num)
  let s1 : State α := ⟨s.mem ++ [some o], s.stk.set n (.arr s.mem.length)⟩
  have hs1 : s1.stk[n]? = some (.arr s.mem.length) := List.getElem?_set_self hlt
  have hm1 : s1.mem[s.mem.length]? = some (some o) := by simp [s1]
  refine ⟨upd s1 s.mem.length { o with size := 0, cells := c2 }, ?_, ⟨s.mem.length, _, hs1, upd_get hm1 _, rfl, rfl, by simp⟩,
    fun i hi => List.getElem?_set_ne (Ne.symm hi), fun b hb => ?_⟩
  · show presize (.slot n) m s = _
    unfold presize
    refine (bind_eq (readSlot h)).trans ?_
    have hz : sizeV (.nil : V α) s = .ok 0 s := rfl
    refine (bind_eq hz).trans ?_
    have e3 : resize (.slot n) m s = .ok () s1 := by
      unfold resize
      rw [if_neg (by omega)]
      have hd : dereference (.slot n) s = .ok (.slot n) s := by
        unfold dereference
        exact (bind_eq (readSlot h)).trans rfl
      refine (bind_eq hd).trans ?_
      refine (bind_eq (readSlot h)).trans ?_
      simp only
      unfold wrap
      refine (bind_eq (readSlot h)).trans ?_
      simp only
      have e4 : newHeap m none s = .ok s.mem.length { s with mem := s.mem ++ [some o] } := by
        unfold newHeap
        simp only [Option.getD_none]
        rw [e1]
        rfl
      refine (bind_eq e4).trans ?_
      unfold writeLoc
      exact if_pos hlt
    refine (bind_eq e3).trans ?_
    exact (resize_arr (m := 0) hs1).trans (heapResize_obj hm1 e2)
  · rw [upd_other (by omega)]
    exact List.getElem?_append_left hb

example : (final [.decl .nil] : State Int).stk[0]? = some .nil := by decide +kernel

/-- A negative size is an assertion that fails. -/
theorem presize_negative_aborts [Env α] {s : State α} {n : Nat} {m : Int} {k : Kind} {xs : List α} (h : Contents s n k xs) (hm : m < 0) :
    run (.presize n m) s = .abort := by
  obtain ⟨a, o, h1, h2, -⟩ := h
  show presize (.slot n) m s = _
  unfold presize
  refine (bind_eq (readSlot h1)).trans ?_
  refine (bind_eq (sizeV_arr h2)).trans ?_
  unfold resize
  rw [if_pos hm]
  rfl

/-- C110 as one would state it: nothing that was visible changes. -/
def PresizeNothing : Prop := ∀ (s s' : State Int) (n m : Nat), Reach s → run (.presize n m) s = .ok () s' → s'.stk = s.stk

/-- `v = nil; v.presize(10)` makes `v` an array. -/
theorem presize_changes_type : ¬ PresizeNothing := by
  intro h
  have := h (final [.decl .nil]) (final [.decl .nil, .presize 0 10]) 0 10 (reach_exec [.decl .nil] .start (by decide +kernel)) (by decide +kernel)
  revert this
  decide +kernel

/-! ## C111: appending raw data -/

/-- C111: `x.append(n, data)` and `x.append("…")` put the data behind the elements of an array of that type; a string stays
    terminated. -/
theorem append_raw_partial [Env α] {s : State α} (hr : Reach s) {n : Nat} {k : Kind} {xs : List α} (hk : Number k) (h : Contents s n k xs)
    (ys : List α) (hf : Fits (xs ++ ys)) :
    ∃ s', run (.append n k ys) s = .ok () s' ∧ Contents s' n k (xs ++ ys) ∧ (k = .char → Terminated s' n) ∧ OnlyArray s s' n := by
  have hf : (xs ++ ys).length + 2 ≤ 2 ^ 30 := hf
  rw [List.length_append] at hf
  obtain ⟨a, ⟨o, ho, hh, hko, hrc⟩, hs⟩ := good_of_contents hr hk h
  obtain ⟨o', e, g, gk, gr⟩ := append_run ys hs ho hh rfl (by omega)
  rw [hko] at e
  refine ⟨_, e, ⟨a, o', hs, upd_get ho _, gk.trans hko, by rw [List.length_append]; exact g.size, g.elem⟩, fun hc => ?_, (only_upd _ _ _).onlyArray hs⟩
  exact ⟨a, o', hs, upd_get ho _, (gk.trans hko).trans hc, by rw [g.size]; exact g.nul trivial ((gk.trans hko).trans hc)⟩

example : Reach (final progAB) ∧ Number .char ∧ Contents (final progAB) 0 .char [65, 66] ∧ Fits ([65, 66] ++ [67, 68]) :=
  ⟨progAB_reach, ⟨by decide, by decide⟩, progAB_contents, by simp [Fits]⟩

/-- A number is first made an array of one. -/
theorem append_raw_number [Env α] (hc : ConvSame α) {s : State α} {n : Nat} {k : Kind} (hk : Scalar k) {x : α}
    (h : s.stk[n]? = some (.num k x)) (ys : List α) (hf : Fits (x :: ys)) :
    ∃ s', run (.append n k ys) s = .ok () s' ∧ Contents s' n k (x :: ys) ∧ (k = .char → Terminated s' n) ∧ OnlyVar s s' n := by
  have hf : ys.length + 1 + 2 ≤ 2 ^ 30 := hf
  have hlt := (List.getElem?_eq_some_iff.1 h).1
  obtain ⟨o, hw, hh, hok, horc⟩ := wrap_num (m := 1) hk.1 h (by omega) (by norm_num)
  rw [hc _ _ hk.2] at hh
  let s1 : State α := ⟨s.mem ++ [some o], s.stk.set n (.arr s.mem.length)⟩
  have hs1 : s1.stk[n]? = some (.arr s.mem.length) := List.getElem?_set_self hlt
  have hm1 : s1.mem[s.mem.length]? = some (some o) := by simp [s1]
  obtain ⟨o2, e2, g2, k2, -⟩ := heapAppend_run ys hm1 hh rfl (by omega)
  rw [hok] at e2
  refine ⟨upd s1 s.mem.length o2, ?_, ⟨s.mem.length, o2, hs1, upd_get hm1 _, k2.trans hok, by rw [g2.size]; simp; omega, g2.elem⟩, fun hc => ?_, fun i hi => ?_, fun b hb => ?_⟩
  · show append (.slot n) k ys s = _
    unfold append
    have e1 : array (.slot n) s = .ok () s1 := by
      unfold array
      have hd : dereference (.slot n) s = .ok (.slot n) s := by
        unfold dereference
        exact (bind_eq (readSlot h)).trans rfl
      refine (bind_eq hd).trans ?_
      exact (bind_eq (readSlot h)).trans hw
    rw [bind_eq e1, bind_eq (readSlot hs1), bind_eq (heapOf_arr _ _)]
    exact e2
  · exact ⟨s.mem.length, o2, hs1, upd_get hm1 _, (k2.trans hok).trans hc, by rw [g2.size]; exact g2.nul trivial ((k2.trans hok).trans hc)⟩
  · exact List.getElem?_set_ne (Ne.symm hi)
  · rw [upd_other (by omega)]
    exact List.getElem?_append_left hb

/-- Data of a type other than that of the array are written as if it were of theirs: undefined behaviour. -/
theorem append_raw_other_type [Env α] {s : State α} (hr : Reach s) {n : Nat} {k j : Kind} {xs : List α} (hk : Number k)
    (h : Contents s n k xs) (hj : j ≠ k) {ys : List α} (hy : ys ≠ []) (hf : Fits (xs ++ ys)) :
    run (.append n j ys) s = .ub .typePun := by
  have hf : (xs ++ ys).length + 2 ≤ 2 ^ 30 := hf
  rw [List.length_append] at hf
  obtain ⟨a, ⟨o, ho, hh, hko, hrc⟩, hs⟩ := good_of_contents hr hk h
  obtain ⟨o1, e1, -⟩ := heapResize_run (m := xs.length + ys.length) ho hh (by omega)
  show append (.slot n) j ys s = _
  unfold append
  rw [bind_eq (array_arr hs), bind_eq (readSlot hs), bind_eq (heapOf_arr _ _)]
  show heapAppend a j ys s = _
  unfold heapAppend
  rw [bind_eq (obj_eq ho), hh.size, bind_eq e1, if_neg]
  · rfl
  · rintro (h' | h')
    · exact hj (h'.symm.trans hko)
    · exact hy (List.eq_nil_of_length_eq_zero h')

example : Contents (final prog123) 0 .int [1, 2, 3] ∧ Kind.char ≠ .int ∧ [65] ≠ ([] : List Int) ∧ Fits ([1, 2, 3] ++ [65]) :=
  ⟨prog123_contents, by decide, by decide, by simp [Fits]⟩

/-- C111 for nil, which is empty. -/
def AppendNil : Prop := ∀ (s : State Int) (n : Nat) (ys : List Int), Reach s → s.stk[n]? = some .nil →
  ∃ s', run (.append n .char ys) s = .ok () s' ∧ Contents s' n .char ys

/-- `var v; v.append("A");` is undefined: nil becomes an array of one var, and the characters are written over vars. -/
theorem append_raw_nil_undefined : ¬ AppendNil ∧ run (.append 0 .char [65]) (final [.decl .nil] : State Int) = .ub .typePun := by
  have h1 : run (.append 0 .char [65]) (final [.decl .nil] : State Int) = .ub .typePun := by decide +kernel
  refine ⟨fun h => ?_, h1⟩
  obtain ⟨s', h2, -⟩ := h (final [.decl .nil]) 0 [65] (reach_exec [.decl .nil] .start (by decide +kernel)) (by decide +kernel)
  rw [h1] at h2
  cases h2

/-! ## C112: appending a var -/

/-- C112: `x.append(y)`, also written `x, y`, for two arrays of numbers: the elements of `y`, converted to the type of those of
    `x`, come behind them; `y` and all else stay as they were. -/
theorem append_array_partial [Env α] {s : State α} (hr : Reach s) {n m : Nat} {k j : Kind}
    {xs ys : List α} (hk : Number k) (hj : Number j) (h : Contents s n k xs) (h' : Contents s m j ys)
    (hd : Separate s n m) (hn : Fits (xs ++ ys)) :
    ∃ s', run (.appendVar n (.name m)) s = .ok () s' ∧ Contents s' n k (xs ++ ys.map (Env.conv j k)) ∧ Contents s' m j ys ∧ OnlyArray s s' n := by
  obtain ⟨s', e, h1, h2, h3⟩ := insert_converts hr hk hj h h' hd (Nat.le_refl _) hn
  obtain ⟨a, ⟨o, ho, hh, hko, hrc⟩, hs⟩ := good_of_contents hr hk h
  obtain ⟨b, ⟨ob, hob, hhb, hkb, hrcb⟩, hsb⟩ := good_of_contents hr hj h'
  have hab : a ≠ b := hd a b hs hsb
  have hev : eval (.name m) s = .ok (.arr b) (upd s b { ob with rc := ob.rc + 1 }) :=
    (bind_eq (readSlot hsb)).trans (copyV_run (v := .arr b) rfl hob)
  have he := appendVar_eq hev (k := n) hs ((upd_other hab.symm _).trans ho)
  rw [hh.size] at he
  rw [List.take_length, List.drop_length, List.map_nil, List.append_nil] at h1
  exact ⟨s', he.trans e, h1, h2, h3⟩

example : Reach (final progABC) ∧ Contents (final progABC) 0 .char [65, 66] ∧ Contents (final progABC) 1 .char [67] ∧
    Separate (final progABC) 0 1 ∧ Fits ([65, 66] ++ [67]) := by
  refine ⟨reach_exec progABC .start (by decide +kernel), ?_, ?_, ?_, by simp [Fits]⟩
  · exact contents_of (a := 0) (o := ⟨.char, 2, 1, [.raw (some 65), .raw (some 66), .raw (some 0), .raw none, .raw none, .raw none, .raw none, .raw none]⟩)
      [65, 66] (by decide +kernel) (by decide +kernel) (by decide) rfl
  · exact contents_of (a := 1) (o := ⟨.char, 1, 1, [.raw (some 67), .raw (some 0), .raw none, .raw none, .raw none, .raw none, .raw none, .raw none]⟩)
      [67] (by decide +kernel) (by decide +kernel) (by decide) rfl
  · intro a b h1 h2
    have e1 : (final progABC).stk[0]? = some (.arr 0) := by decide +kernel
    have e2 : (final progABC).stk[1]? = some (.arr 1) := by decide +kernel
    rw [e1] at h1
    rw [e2] at h2
    cases h1
    cases h2
    decide

/-- C112 for nil. -/
def AppendToNil : Prop := ∀ (s : State Int) (n : Nat) (cs : List Int), Reach s → s.stk[n]? = some .nil →
  ∃ s', run (.appendVar n (.str cs)) s = .ok () s' ∧ Contents s' n .char cs

/-- `var v; v.append(var("A"))` makes an array of one var, the character, and not the string; so does `v, "A"`. -/
theorem append_nil_wrong : ¬ AppendToNil := by
  intro h
  obtain ⟨s', h1, a, o, h2, h3, h4, -⟩ := h (final [.decl .nil]) 0 [65] (reach_exec [.decl .nil] .start (by decide +kernel)) (by decide +kernel)
  have e : run (.appendVar 0 (.str [65])) (final [.decl .nil] : State Int) = .ok () ⟨[none,
      some ⟨.var, 1, 1, [.var (.num .char 65), .var .nil, .var .nil, .var .nil, .var .nil, .var .nil, .var .nil, .var .nil]⟩], [.arr 1]⟩ := by decide +kernel
  rw [e] at h1
  cases h1
  cases h2
  cases h3
  cases h4

/-- C112 for an array appended to itself. -/
def AppendSelf : Prop := ∀ (s s' : State Int) (n : Nat) (xs : List Int), Reach s → Contents s n .char xs → Fits (xs ++ xs) →
  run (.appendVar n (.name n)) s = .ok () s' → Contents s' n .char (xs ++ xs) ∧ Terminated s' n

/-- `x.append(x)` writes past the end of `x`: "AB" loses its terminator. -/
theorem append_self_wrong : ¬ AppendSelf := by
  intro h
  have e : run (.appendVar 0 (.name 0)) (final progAB) = .ok () ⟨[some ⟨.char, 4, 1, [.raw (some 65), .raw (some 66), .raw (some 65), .raw (some 66),
      .raw (some 65), .raw (some 66), .raw none, .raw none]⟩], [.arr 0]⟩ := by decide +kernel
  obtain ⟨-, a, o, h1, h2, -, h3⟩ := h _ _ 0 [65, 66] progAB_reach progAB_contents (by simp [Fits]) e
  cases h1
  cases h2
  revert h3
  decide

/-- With three numbers it writes past the memory of `x`. -/
theorem append_self_undefined : run (.appendVar 0 (.name 0)) (final prog123) = .ub .outOfBounds := by decide +kernel

/-- A number that is an element of an array cannot be appended with `x.append(y[i])`, to the same array or another: it throws,
    and `x` has grown by an element that was not written. -/
theorem append_element_throws [Env α] {s : State α} (hr : Reach s) {n m i : Nat} {k j : Kind} {xs ys : List α} (hk : Number k) (hj : Number j)
    (h : Contents s n k xs) (h' : Contents s m j ys) (hi : i < ys.length) (hf : Fits xs) :
    ∃ s' a o, run (.appendVar n (.elem m i)) s = .thrown (.error "Heap::derefInt: Not a reference") s' ∧ s'.stk = s.stk ∧
      s.stk[n]? = some (.arr a) ∧ s'.mem[a]? = some (some o) ∧ o.kind = k ∧ o.size = xs.length + 1 ∧
      ∀ (i : Nat) (x : α), xs[i]? = some x → o.cells[i]? = some (.raw (some x)) := by
  have hf : xs.length + 2 ≤ 2 ^ 30 := hf
  obtain ⟨a, ⟨o, ho, hh, hko, hrc⟩, hs⟩ := good_of_contents hr hk h
  obtain ⟨b, ⟨ob, hob, hhb, hkb, hrcb⟩, hsb⟩ := good_of_contents hr hj h'
  have hev : eval (.elem m i) s = .ok (.ref b i) (upd s b { ob with rc := ob.rc + 1 }) := index_in hsb hob (by rw [hhb.size]; exact hi)
  -- the array of `x` after the reference was made
  obtain ⟨o1, ho1, hh1, hk1, hr1⟩ : ∃ o1, (upd s b { ob with rc := ob.rc + 1 }).mem[a]? = some (some o1) ∧ Has False o1 xs.length xs ∧ o1.kind = o.kind ∧
      (a = b → 2 ≤ o1.rc) := by
    by_cases hab : a = b
    · subst hab
      rw [ho] at hob
      cases hob
      exact ⟨_, upd_get ho _, hh.rc _, rfl, fun _ => by simp; omega⟩
    · exact ⟨o, (upd_other (Ne.symm hab) _).trans ho, hh, rfl, fun h => absurd h hab⟩
  let s1 : State α := { upd s b { ob with rc := ob.rc + 1 } with stk := s.stk ++ [.ref b i] }
  have hs1 : s1.stk[n]? = some (.arr a) := slot_append hs
  obtain ⟨o2, e2, g2, k2, r2, -⟩ := resize_run (s := s1) (m := xs.length + 1) hs1 ho1 hh1 (by omega)
  rw [List.take_of_length_le (by omega)] at g2
  have hb2 : ∃ ob2, (upd s1 a o2).mem[b]? = some (some ob2) ∧ IsNum ob2.kind ∧ 2 ≤ ob2.rc := by
    by_cases hab : a = b
    · subst hab
      exact ⟨o2, upd_get ho1 _, g2.num, by rw [r2]; exact hr1 rfl⟩
    · exact ⟨_, (upd_other hab _).trans (upd_get hob _), hhb.num, by simp; omega⟩
  obtain ⟨ob2, hob2, hkb2, hrb2⟩ := hb2
  have hl2 : readLoc (.slot s.stk.length) (upd s1 a o2) = .ok (.ref b i) (upd s1 a o2) := readSlot (by simp [upd, s1])
  have hsz : sizeV (.ref b i) (upd s1 a o2) = .ok 1 (upd s1 a o2) := by
    unfold sizeV
    rw [bind_eq (derefV_ref_num hob2 hkb2)]
    rfl
  have hsz1 : sizeV (.ref b i) s1 = .ok 1 s1 := by
    unfold sizeV
    rw [bind_eq (derefV_ref_num (s := s1) (upd_get hob _) hhb.num)]
    rfl
  have hthrow : (Mem.insert (.slot n) (.ref b i) xs.length) (upd s b { ob with rc := ob.rc + 1 }) =
      .thrown (.error "Heap::derefInt: Not a reference") { upd (upd s1 a o2) b { ob2 with rc := ob2.rc - 1 } with stk := s.stk } := by
    have hbody : insertNums (.slot n) (.slot s.stk.length) (.ref b i) xs.length xs.length s1 =
        .thrown (.error "Heap::derefInt: Not a reference") (upd s1 a o2) := by
      unfold insertNums
      have e2' : resize (.slot n) ((xs.length : Int) + ((1 : Nat) : Int)) s1 = .ok () (upd s1 a o2) := e2
      rw [bind_eq hsz1, bind_eq e2', bind_eq (readSlot (s := upd s1 a o2) hs1), bind_eq (sizeV_arr (upd_get (s := s1) ho1 o2)), g2.size]
      rw [bind_eq hl2, bind_eq hsz, Nat.sub_self]
      have hmu : moveUp (.slot n) 1 (xs.length + 1 - 1) 0 (upd s1 a o2) = .ok () (upd s1 a o2) := rfl
      rw [bind_eq hmu, bind_eq hl2, bind_eq hsz]
      unfold copyIn
      rw [bind_eq hl2, bind_eq hsz, if_pos (by decide)]
      have hix : Mem.index (.slot s.stk.length) (0 : Nat) (upd s1 a o2) = .thrown (.error "Heap::derefInt: Not a reference") (upd s1 a o2) := by
        unfold Mem.index
        rw [bind_eq hl2]
        simp only
        rw [if_neg (by decide), bind_eq (derefLoc_num hob2 hkb2)]
        rfl
      rw [bind_run]
      unfold M.bind
      rw [hix]
    have hdet := detach_run (v := .ref b i) (s := { upd s1 a o2 with stk := s.stk }) rfl hob2 hrb2
    rw [insert_eq (s := upd s b { ob with rc := ob.rc + 1 }) hs ho1 hh1 (Nat.le_refl _)]
    unfold withVar
    simp only
    erw [hbody]
    simp [upd, s1] at hdet ⊢
    rw [hdet]
  have happ : run (.appendVar n (.elem m i)) s = Mem.insert (.slot n) (.ref b i) xs.length (upd s b { ob with rc := ob.rc + 1 }) := by
    show (eval (.elem m i) >>= fun v => _) s = _
    rw [bind_eq hev, bind_eq (readSlot (s := upd s b _) hs), bind_eq (sizeV_arr ho1), hh1.size]
  refine ⟨_, a, ?_, happ.trans hthrow, rfl, hs, ?_⟩
  · exact if a = b then { o2 with rc := o2.rc - 1 } else o2
  · by_cases hab : a = b
    · subst hab
      rw [upd_get (s := s1) ho1] at hob2
      cases hob2
      rw [if_pos rfl]
      exact ⟨upd_get (s := upd s1 a o2) (upd_get (s := s1) ho1 _) _, k2.trans (hk1.trans hko), g2.size, g2.elem⟩
    · rw [if_neg hab]
      exact ⟨(upd_other (Ne.symm hab) _).trans (upd_get (s := s1) ho1 _), k2.trans (hk1.trans hko), g2.size, g2.elem⟩

/-- `[1,2,3]` and its element 1. -/
example : Contents (final prog123) 0 .int [1, 2, 3] ∧ 1 < [1, 2, 3].length ∧ Fits [1, 2, 3] := ⟨prog123_contents, by decide, by simp [Fits]⟩

/-- Appending a number to a number makes an array of the two; the second is converted to the type of the first. -/
theorem append_to_number [Env α] (hc : ConvSame α) {s : State α} {n : Nat} {k j : Kind} (hk : Scalar k) (hj : Scalar j) {x : α}
    (h : s.stk[n]? = some (.num k x)) (y : α) :
    ∃ s', run (.appendVar n (.num j y)) s = .ok () s' ∧ Contents s' n k [x, Env.conv j k y] ∧ OnlyVar s s' n := by
  have hlt := (List.getElem?_eq_some_iff.1 h).1
  let s1 : State α := ⟨s.mem, s.stk ++ [.num j y]⟩
  have hs1 : s1.stk[n]? = some (.num k x) := slot_append h
  obtain ⟨o, hw, hh, hok, horc⟩ := wrap_num (s := s1) (m := 2) hk.1 hs1 (by omega) (by norm_num)
  rw [hc _ _ hk.2] at hh
  let s2 : State α := ⟨s.mem ++ [some o], s.stk.set n (.arr s.mem.length) ++ [.num j y]⟩
  have hs2 : (⟨s1.mem ++ [some o], s1.stk.set n (.arr s1.mem.length)⟩ : State α) = s2 := by
    simp [s1, s2, List.set_append_left _ _ hlt]
  rw [hs2] at hw
  have hn2 : s2.stk[n]? = some (.arr s.mem.length) := by
    show (s.stk.set n _ ++ _)[n]? = _
    rw [List.getElem?_append_left (by simpa using hlt), List.getElem?_set_self hlt]
  have hv2 : s2.stk[s.stk.length]? = some (.num j y) := by simp [s2]
  have hm2 : s2.mem[s.mem.length]? = some (some o) := by simp [s2]
  obtain ⟨ob, hix, hob, hobk, hobr⟩ := index_num (P := True) (hc _ y hj.2) (kv := s.stk.length) (s := s2) hj.1 hv2
  let s3 : State α := ⟨s.mem ++ [some o] ++ [some { ob with rc := 2 }], s.stk.set n (.arr s.mem.length) ++ [.arr (s.mem.length + 1)]⟩
  have hs3 : (⟨s2.mem ++ [some { ob with rc := 2 }], s2.stk.set s.stk.length (.arr s2.mem.length)⟩ : State α) = s3 := by
    simp [s2, s3]
  have hl2 : s2.mem.length = s.mem.length + 1 := by simp [s2]
  rw [hs3, hl2] at hix
  obtain ⟨z, hz⟩ := hh.place (i := 1) (by omega)
  have hset := setAt_other (a := s.mem.length) (b := s.mem.length + 1) (i := 1) (j := 0) (s := s3) (o := o) (p := { ob with rc := 2 }) (x := y) (by omega)
    (by simp [s3]) hh.num hz (by simp [s3]) (by rw [show ({ ob with rc := 2 } : Obj α).kind = j from hobk]; exact hj.1) (hob.elem 0 y rfl) (by omega) (by simp)
  simp only [hobk, hok] at hset
  have hsn := hh.snoc (by simp) (Env.conv j k y)
  let o' : Obj α := { o with cells := o.cells.set 1 (.raw (some (Env.conv j k y))) }
  have hend : upd (upd s3 s.mem.length { o with cells := o.cells.set 1 (.raw (some (Env.conv j o.kind y))) }) (s.mem.length + 1) { ob with rc := 1 } =
      ⟨s.mem ++ [some o'] ++ [some { ob with rc := 1 }], s.stk.set n (.arr s.mem.length) ++ [.arr (s.mem.length + 1)]⟩ := by
    simp [upd, s3, o', hok]
  refine ⟨⟨s.mem ++ [some o'] ++ [none], s.stk.set n (.arr s.mem.length)⟩, (bind_eq (newNum_scalar hj y s)).trans ?_, ⟨s.mem.length, o', ?_, by simp, hok, hh.size, hsn.elem⟩,
    fun i hi => List.getElem?_set_ne (Ne.symm hi), fun b hb => ?_⟩
  · rw [bind_eq (readSlot h), bind_eq (sizeV_num k x s)]
    unfold Mem.insert
    refine withVar_run' (w := .arr (s.mem.length + 1)) (mem1 := s.mem ++ [some o'] ++ [some { ob with rc := 1 }]) (stk1 := s.stk.set n (.arr s.mem.length)) ?_ (by simp) ?_
    · rw [bind_eq (readSlot (s := s1) hs1), bind_eq (sizeV_num k x s1), if_neg (by decide)]
      have hka : kindAt (.slot n) s1 = .ok none s1 := by
        unfold kindAt
        rw [bind_eq (readSlot hs1)]
        rfl
      rw [bind_eq hka]
      show (sizeV (.num j y) >>= _) s1 = _
      rw [bind_eq (sizeV_num j y s1)]
      have hres : resize (.slot n) (((1 : Nat) : Int) + ((1 : Nat) : Int)) s1 = .ok () s2 := by
        unfold resize
        rw [if_neg (by decide)]
        have hd : dereference (.slot n) s1 = .ok (.slot n) s1 := by
          unfold dereference
          exact (bind_eq (readSlot hs1)).trans rfl
        refine (bind_eq hd).trans ?_
        refine (bind_eq (readSlot hs1)).trans ?_
        simp only
        rw [if_pos (by decide)]
        exact hw
      have hrv : readLoc (.slot s.stk.length) s2 = .ok (.num j y) s2 := readSlot hv2
      rw [bind_eq hres, bind_eq (readSlot hn2), bind_eq (sizeV_arr hm2), hh.size, bind_eq hrv, bind_eq (sizeV_num j y s2)]
      have hmu : moveUp (.slot n) 1 (2 - 1) (2 - (1 + 1)) s2 = .ok () s2 := rfl
      rw [bind_eq hmu, bind_eq hrv, bind_eq (sizeV_num j y s2)]
      unfold copyIn
      rw [bind_eq hrv, bind_eq (sizeV_num j y s2), if_pos (by decide)]
      refine (bind_eq hix).trans ?_
      have hrn : readLoc (.slot n) s3 = .ok (.arr s.mem.length) s3 := readSlot (by
        show (s.stk.set n _ ++ _)[n]? = _
        rw [List.getElem?_append_left (by simpa using hlt), List.getElem?_set_self hlt])
      rw [bind_eq hrn]
      refine (bind_eq hset).trans ?_
      rw [← hend, hok, hobk]
      rfl
    · exact detach_last (mem := s.mem ++ [some o']) (o := { ob with rc := 1 }) rfl hob.ptrs |> fun h => by simpa using h
  · exact List.getElem?_set_self hlt
  · show (s.mem ++ [some o'] ++ [none])[b]? = _
    rw [List.append_assoc, List.getElem?_append_left hb]

/-- Appending numbers to variable `n` one after another, none of it failing. -/
def AppendAll [Env α] (n : Nat) : List (Kind × α) → State α → State α → Prop
  | [], s, s' => s' = s
  | (j, y) :: ys, s, s' => ∃ t, run (.appendVar n (.num j y)) s = .ok () t ∧ AppendAll n ys t s'

theorem appendAll_contents [Env α] (hc : ConvSame α) {n : Nat} {k : Kind} (hk : Scalar k) (ys : List (Kind × α)) :
    ∀ {s : State α} {xs : List α}, Reach s → Contents s n k xs → (∀ p ∈ ys, Scalar p.1) → Fits (xs ++ ys.map Prod.snd) →
      ∃ s', AppendAll n ys s s' ∧ Contents s' n k (xs ++ ys.map fun p => Env.conv p.1 k p.2) := by
  induction ys with
  | nil => intro s xs _ h _ _; exact ⟨s, rfl, by simpa using h⟩
  | cons p ys ih =>
    obtain ⟨j, y⟩ := p
    intro s xs hr h hj hf
    have hf' : xs.length + (ys.length + 1) + 2 ≤ 2 ^ 30 := by simpa [Fits] using hf
    obtain ⟨t, ⟨t', e, et⟩, h2, -⟩ := array_is_list_partial hc hr hk h [.appendVar j y]
      ⟨by unfold Fits; omega, hj _ List.mem_cons_self, by show (xs ++ [_]).length + 2 ≤ 2 ^ 30; simp; omega⟩
    cases et
    obtain ⟨s', h3, h4⟩ := ih (hr.ok e) h2 (fun p hp => hj p (List.mem_cons_of_mem _ hp)) (by
      show (xs ++ [_] ++ _).length + 2 ≤ 2 ^ 30
      simp
      omega)
    refine ⟨s', ⟨t, e, h3⟩, ?_⟩
    have e5 : listOps k [.appendVar j y] xs ++ ys.map (fun p => Env.conv p.1 k p.2) =
        xs ++ ((j, y) :: ys).map fun p => Env.conv p.1 k p.2 := by simp [listOps, Op.list]
    rwa [e5] at h4

/-- C112: `v = x, y1, y2, …;` with at least one comma, for a variable that was nil, is the array of these numbers, all of the
    type of the first.  (Each comma but the first applies to a temporary that shares the array.) -/
theorem comma_list_partial [Env α] (hc : ConvSame α) {s : State α} (hr : Reach s) {n : Nat} {k : Kind} (hk : Scalar k) (h : s.stk[n]? = some .nil)
    (x : α) {ys : List (Kind × α)} (hne : ys ≠ []) (hj : ∀ p ∈ ys, Scalar p.1) (hf : Fits (x :: ys.map Prod.snd)) :
    ∃ s1 s', run (.assign n (.num k x)) s = .ok () s1 ∧ AppendAll n ys s1 s' ∧ Contents s' n k (x :: ys.map fun p => Env.conv p.1 k p.2) := by
  have h1 : run (.assign n (.num k x)) s = .ok () { s with stk := s.stk.set n (.num k x) } :=
    (bind_eq (newNum_scalar hk x s)).trans (assign_nil_num h k x)
  obtain ⟨⟨j, y⟩, ys, rfl⟩ := List.exists_cons_of_ne_nil hne
  obtain ⟨t, e, h2, -⟩ := append_to_number hc (s := { s with stk := s.stk.set n (.num k x) }) hk (hj _ List.mem_cons_self)
    (List.getElem?_set_self (List.getElem?_eq_some_iff.1 h).1) y
  obtain ⟨s', h3, h4⟩ := appendAll_contents hc hk ys ((hr.ok h1).ok e) h2 (fun p hp => hj p (List.mem_cons_of_mem _ hp)) hf
  exact ⟨_, s', h1, ⟨t, e, h3⟩, h4⟩

/-- `v = 1, 2.0f, 3;` -/
example : (final [.decl .nil] : State Int).stk[0]? = some .nil ∧ [(Kind.float, (2 : Int)), (.int, 3)] ≠ [] ∧
    (∀ p ∈ [(Kind.float, (2 : Int)), (.int, 3)], Scalar p.1) ∧ Fits ((1 : Int) :: [(Kind.float, 2), (.int, 3)].map Prod.snd) := by
  refine ⟨by decide +kernel, by decide, ?_, by simp [Fits]⟩
  intro p hp
  simp at hp
  rcases hp with rfl | rfl <;> exact ⟨⟨by decide, by decide⟩, by decide⟩

#print axioms presize_partial
#print axioms presize_string_shorter
#print axioms presize_number_wraps
#print axioms presize_number_same
#print axioms presize_nil_array
#print axioms presize_negative_aborts
#print axioms presize_changes_type
#print axioms var_presize
#print axioms append_raw_partial
#print axioms append_raw_number
#print axioms append_raw_other_type
#print axioms append_raw_nil_undefined
#print axioms append_array_partial
#print axioms append_to_number
#print axioms comma_list_partial
#print axioms var_append
#print axioms append_nil_wrong
#print axioms append_self_wrong
#print axioms append_self_undefined
#print axioms append_element_throws

end Libube.MemProps

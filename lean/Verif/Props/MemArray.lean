import Verif.Lemmas.MemArray
import Verif.Props.Mem

/-! # Arrays of numbers (C39–C44, C49, C50) -/

namespace Libube.MemProps

open Mem MemSpec

variable {α : Type}

attribute [local instance] intEnv

theorem intConv : ConvSame Int := fun _ _ _ => rfl

/-! ## C39 -/

/-- Any sequence of valid operations on an array of numbers runs without exceptions, makes of its contents
    what the operations make of a list, and changes no other variable or array.  For all element types but
    `cdouble`, var and pair, and for values given as numbers. -/
theorem array_is_list_partial [Env α] (hc : ConvSame α) {s : State α} (hr : Reach s) {n : Nat} {k : Kind}
    {xs : List α} (hk : Scalar k) (h : Contents s n k xs) (ops : List (Op α)) (hv : ValidOps k ops xs) :
    ∃ s', Runs (ops.map (Op.stmt n k)) s s' ∧ Contents s' n k (listOps k ops xs) ∧ OnlyArray s s' n := by
  obtain ⟨a, hg⟩ := good_of_contents hr hk.1 h
  obtain ⟨s', h1, h2, h3⟩ := steps_ok hc hk.2 ops s xs hg hv
  exact ⟨s', h1, h2.contents, h3.onlyArray hg.slot⟩

/-- `x = 1; x.push(2); x.push(3);` -/
def prog123 : List (Stmt Int) := [.decl (.num .int 1), .push 0 (.num .int 2), .push 0 (.num .int 3)]

theorem prog123_ok : exec prog123 ⟨[], []⟩ = .ok () (final prog123) := by decide +kernel

theorem prog123_contents : Contents (final prog123) 0 .int [1, 2, 3] := by
  refine ⟨0, ⟨.int, 3, 1, [.raw (some 1), .raw (some 2), .raw (some 3), .raw none, .raw none, .raw none, .raw none, .raw none]⟩,
    by decide +kernel, by decide +kernel, rfl, rfl, ?_⟩
  intro i x hx
  match i, hx with
  | 0, hx => simpa using hx
  | 1, hx => simpa using hx
  | 2, hx => simpa using hx

/-- Operations: the list becomes 7 1 5 3 9, then 1 5 3, then 1 4 3, 1 3. -/
def ops : List (Op Int) :=
  [.push .int 9, .unshift 7, .remove 2, .insert .int 5 2, .pop, .shift, .set 1 .int 4, .remove 1,
    .insertStr [65, 66] 1, .truncate 3, .presize 40, .append [8, 9], .appendVar .float 6, .appendStr [67]]

example : Reach (final prog123) ∧ Scalar .int ∧ ValidOps .int ops [1, 2, 3] ∧
    listOps .int ops [1, 2, 3] = [1, 65, 66, 8, 9, 6, 67] := by
  refine ⟨reach_exec prog123 .start prog123_ok, ⟨⟨by decide, by decide⟩, by decide⟩, ?_, rfl⟩
  simp [ops, ValidOps, Op.Valid, Op.list, Fits, Scalar, Number]

/-- C39 for values that are elements of the same array. -/
def UnshiftElement : Prop := ∀ (s : State Int) (n : Nat) (xs : List Int) (i : Nat) (x : Int), Reach s →
  Contents s n .int xs → xs[i]? = some x → ∀ s', run (.unshift n (.elem n i)) s = .ok () s' →
  Contents s' n .int (x :: xs)

/-- `x.unshift(x[1])` puts the former element 0 in front: the value is read after the elements have
    moved. -/
theorem unshift_own_element_wrong : ¬ UnshiftElement := by
  intro h
  obtain ⟨a, o, h1, h2, -, -, h3⟩ := h (final prog123) 0 [1, 2, 3] 1 2 (reach_exec prog123 .start prog123_ok) prog123_contents rfl
    (final (prog123 ++ [.unshift 0 (.elem 0 1)])) (by decide +kernel)
  have h4 := h3 0 2 rfl
  have h5 : (final (prog123 ++ [.unshift 0 (.elem 0 1)])).stk = [.arr 0] := by decide +kernel
  have h6 : (final (prog123 ++ [.unshift 0 (.elem 0 1)])).mem = [some ⟨.int, 4, 1, [.raw (some 1), .raw (some 1),
    .raw (some 2), .raw (some 3), .raw none, .raw none, .raw none, .raw none]⟩] := by decide +kernel
  rw [h5] at h1
  cases h1
  rw [h6] at h2
  cases h2
  cases h4

/-! ## C40 -/

/-- `y = x.pop()` where `y` is nil or a number: `y` becomes the last element, as a value of its own, and
    the array loses it.  Not for strings. -/
theorem pop_assigned_partial [Env α] {s : State α} (hr : Reach s) {n m : Nat} {k : Kind} {xs : List α} {x : α}
    {t : V α} (hk : Scalar k) (hch : k ≠ .char) (h : Contents s n k (xs ++ [x])) (hm : s.stk[m]? = some t)
    (ht : ∀ a, ¬ VTo t a) (hn : Fits xs) :
    ∃ s', run (.assign m (.pop n)) s = .ok () s' ∧ s'.stk = s.stk.set m (.num k x) ∧ Contents s' n k xs := by
  obtain ⟨a, ⟨o, ho, hh, hko, hrc⟩, hs⟩ := good_of_contents hr hk.1 h
  rw [List.length_append, List.length_singleton] at hh
  have hf : xs.length + 2 ≤ 2 ^ 30 := hn
  obtain ⟨o', h1, h2, h3, h4⟩ := pop_run hs ho hh (by omega) hrc
  rw [List.take_left] at h2
  have hx : o'.cells[xs.length]? = some (.raw (some x)) :=
    h4 _ _ (.inr (.inl (by rw [hko]; exact hch))) (hh.elem _ _ (by simp))
  have htp : t.ptr = none := by
    cases t with
    | arr b => exact absurd (.inl rfl) (ht b)
    | ref b i => exact absurd (.inr ⟨i, rfl⟩) (ht b)
    | _ => rfl
  have hne : m ≠ n := by
    rintro rfl
    rw [hs] at hm
    cases hm
    cases htp
  have hks : Scalar ({ o' with rc := o.rc + 1 } : Obj α).kind := by
    rw [show ({ o' with rc := o.rc + 1 } : Obj α).kind = k from h3.trans hko]
    exact hk
  have h5 := assign_value (s := upd s a { o' with rc := o.rc + 1 }) (i := xs.length) hm htp (upd_get ho _) hks hx
    (by simp; omega)
  refine ⟨_, (bind_eq h1).trans h5, ?_, ⟨a, { o' with rc := o.rc }, ?_, ?_, h3.trans hko, h2.size, h2.elem⟩⟩
  · show s.stk.set m (.num o'.kind x) = _
    rw [h3, hko]
  · show (s.stk.set m _)[n]? = _
    rw [List.getElem?_set_ne hne]
    exact hs
  · rw [show o.rc = o.rc + 1 - 1 from rfl]
    exact upd_get (upd_get ho _) _

/-- The contents of an array with room for eight numbers. -/
theorem contents_of {s : State Int} {n : Nat} {a : Addr} {o : Obj Int} (xs : List Int) (h1 : s.stk[n]? = some (.arr a))
    (h2 : s.mem[a]? = some (some o)) (h3 : o.cells.take xs.length = xs.map fun x => .raw (some x))
    (h4 : o.size = xs.length) : Contents s n o.kind xs := by
  refine ⟨a, o, h1, h2, rfl, h4, fun i x hx => ?_⟩
  have hi := (List.getElem?_eq_some_iff.1 hx).1
  have : (o.cells.take xs.length)[i]? = some (.raw (some x)) := by
    rw [h3, List.getElem?_map, hx]
    rfl
  rw [List.getElem?_take, if_pos hi] at this
  exact this

/-- `y = nil; x = 1; x.push(2); x.push(3);` -/
def prog40 : List (Stmt Int) := [.decl .nil, .decl (.num .int 1), .push 1 (.num .int 2), .push 1 (.num .int 3)]

theorem prog40_reach : Reach (final prog40) := reach_exec prog40 .start (by decide +kernel)

theorem prog40_contents : Contents (final prog40) 1 .int ([1, 2] ++ [3]) :=
  contents_of (a := 0) (o := ⟨.int, 3, 1, [.raw (some 1), .raw (some 2), .raw (some 3), .raw none, .raw none, .raw none, .raw none, .raw none]⟩)
    [1, 2, 3] (by decide +kernel) (by decide +kernel) (by decide) rfl

example : (final prog40).stk[0]? = some .nil ∧ (∀ a, ¬ VTo (.nil : V Int) a) ∧ Fits [(1 : Int), 2] := by
  refine ⟨by decide +kernel, ?_, by simp [Fits]⟩
  rintro a (h | ⟨i, h⟩) <;> cases h

/-- `var y = x.pop()` reads as the last element as long as the array is left alone.  Not for strings. -/
theorem pop_declared_partial [Env α] {s : State α} (hr : Reach s) {n : Nat} {k : Kind} {xs : List α} {x : α}
    (hk : Number k) (hch : k ≠ .char) (h : Contents s n k (xs ++ [x])) (hn : Fits xs) :
    ∃ s', run (.decl (.pop n)) s = .ok () s' ∧ Shows s' s.stk.length k x ∧ Contents s' n k xs := by
  obtain ⟨a, ⟨o, ho, hh, hko, hrc⟩, hs⟩ := good_of_contents hr hk h
  rw [List.length_append, List.length_singleton] at hh
  have hf : xs.length + 2 ≤ 2 ^ 30 := hn
  obtain ⟨o', h1, h2, h3, h4⟩ := pop_run hs ho hh (by omega) hrc
  rw [List.take_left] at h2
  refine ⟨_, bind_eq h1, .inr ⟨a, xs.length, _, by simp [upd], upd_get ho _, h3.trans hko,
    h4 _ _ (.inr (.inl (by rw [hko]; exact hch))) (hh.elem _ _ (by simp))⟩,
    ⟨a, _, slot_append hs, upd_get ho _, h3.trans hko, h2.size, h2.elem⟩⟩

/-- What `pop()` of a string gives reads as NUL, always. -/
theorem pop_string_gives_nul [Env α] {s : State α} (hr : Reach s) {n : Nat} {xs : List α} {x : α}
    (h : Contents s n .char (xs ++ [x])) (hn : Fits xs) :
    ∃ s', run (.decl (.pop n)) s = .ok () s' ∧ Shows s' s.stk.length .char Env.nul ∧ Contents s' n .char xs := by
  obtain ⟨a, ⟨o, ho, hh, hko, hrc⟩, hs⟩ := good_of_contents hr ⟨by decide, by decide⟩ h
  rw [List.length_append, List.length_singleton] at hh
  have hf : xs.length + 2 ≤ 2 ^ 30 := hn
  obtain ⟨o', h1, h2, h3, -⟩ := pop_run hs ho hh (by omega) hrc
  rw [List.take_left] at h2
  exact ⟨_, bind_eq h1, .inr ⟨a, xs.length, _, by simp [upd], upd_get ho _, h3.trans hko,
    h2.nul trivial (h3.trans hko)⟩, ⟨a, _, slot_append hs, upd_get ho _, h3.trans hko, h2.size, h2.elem⟩⟩

/-- A string: `x = "AB"`. -/
def progAB : List (Stmt Int) := [.decl (.str [65, 66])]

theorem progAB_reach : Reach (final progAB) := reach_exec progAB .start (by decide +kernel)

theorem progAB_contents : Contents (final progAB) 0 .char [65, 66] :=
  contents_of (a := 0) (o := ⟨.char, 2, 1, [.raw (some 65), .raw (some 66), .raw (some 0), .raw none, .raw none, .raw none, .raw none, .raw none]⟩)
    [65, 66] (by decide +kernel) (by decide +kernel) (by decide) rfl

example : Contents (final progAB) 0 .char ([65] ++ [66]) ∧ Fits [(65 : Int)] := ⟨progAB_contents, by simp [Fits]⟩

/-- C40: after `var y = x.pop()`, `y` reads as the former last element, and so it does after another push. -/
def PopValue : Prop := ∀ (s : State Int) (n : Nat) (k : Kind) (xs : List Int) (x : Int), Reach s → Scalar k →
  Contents s n k (xs ++ [x]) → ∀ s', run (.decl (.pop n)) s = .ok () s' → Shows s' s.stk.length k x ∧
    ∀ e s'', run (.push n e) s' = .ok () s'' → Shows s'' s.stk.length k x

/-- A number shown is the only one. -/
theorem Shows.unique {s : State α} {m : Nat} {k k' : Kind} {x y : α} (h1 : Shows s m k x) (h2 : Shows s m k' y) :
    x = y := by
  rcases h1 with h1 | ⟨a, i, o, h1, h3, -, h4⟩ <;> rcases h2 with h2 | ⟨b, j, p, h2, h5, -, h6⟩
  · rw [h1] at h2; cases h2; rfl
  · rw [h1] at h2; cases h2
  · rw [h1] at h2; cases h2
  · rw [h1] at h2
    cases h2
    rw [h3] at h5
    cases h5
    rw [h4] at h6
    cases h6
    rfl

/-- After `var y = x.pop(); x.push(9)` the variable `y` reads as 9. -/
theorem pop_changes_later : ¬ PopValue := by
  intro h
  have h1 := (h (final prog40) 1 .int [1, 2] 3 prog40_reach ⟨⟨by decide, by decide⟩, by decide⟩ prog40_contents
    (final (prog40 ++ [.decl (.pop 1)])) (by decide +kernel)).2 (.num .int 9)
    (final (prog40 ++ [.decl (.pop 1), .push 1 (.num .int 9)])) (by decide +kernel)
  have hl : (final prog40).stk.length = 2 := by decide +kernel
  rw [hl] at h1
  have h2 : Shows (final (prog40 ++ [.decl (.pop 1), .push 1 (.num .int 9)])) 2 .int 9 :=
    .inr ⟨0, 2, ⟨.int, 3, 2, [.raw (some 1), .raw (some 2), .raw (some 9), .raw none, .raw none, .raw none, .raw none, .raw none]⟩,
      by decide +kernel, by decide +kernel, rfl, rfl⟩
  exact absurd (Shows.unique h1 h2) (by decide)

/-! ## C41 -/

/-- `remove(i)` leaves an array of numbers without element `i`, and nothing else changed.  What it returns
    is right only for the last element, and not for strings: see `remove_shows_next`. -/
theorem remove_partial [Env α] (hc : ConvSame α) {s : State α} (hr : Reach s) {n i : Nat} {k : Kind} {xs : List α}
    (hk : Scalar k) (h : Contents s n k xs) (hi : i < xs.length) (hn : Fits xs) :
    ∃ s', run (.decl (.remove n i)) s = .ok () s' ∧ Contents s' n k (xs.eraseIdx i) ∧
      (∀ x, i + 1 = xs.length → k ≠ .char → xs[i]? = some x → Shows s' s.stk.length k x) := by
  obtain ⟨a, ⟨o, ho, hh, hko, hrc⟩, hs⟩ := good_of_contents hr hk.1 h
  have hf : xs.length + 2 ≤ 2 ^ 30 := hn
  obtain ⟨o', h1, h2, h3, h4, h5, h6⟩ := remove_run (fun x => hc _ x (by rw [hko]; exact hk.2)) hs ho hh rfl hi hrc (by omega)
  refine ⟨_, bind_eq h1, ⟨a, _, slot_append hs, upd_get ho _, h3.trans hko, ?_, h2.elem⟩, fun x hl hch hx => ?_⟩
  · have h7 := h2.size
    simp only
    rw [h7, List.length_eraseIdx, if_pos hi]
  · exact .inr ⟨a, i, _, by simp [upd], upd_get ho _, h3.trans hko, h6 x hl (by rw [hko]; exact hch) hx⟩

/-- `remove(i)` for all element types: the elements behind are converted from their type to itself. -/
theorem remove_converts [Env α] {s : State α} (hr : Reach s) {n i : Nat} {k : Kind} {xs : List α}
    (hk : Number k) (h : Contents s n k xs) (hi : i < xs.length) (hn : Fits xs) :
    ∃ s', run (.decl (.remove n i)) s = .ok () s' ∧
      Contents s' n k (xs.take i ++ (xs.drop (i + 1)).map (Env.conv k k)) := by
  obtain ⟨a, ⟨o, ho, hh, hko, hrc⟩, hs⟩ := good_of_contents hr hk h
  have hf : xs.length + 2 ≤ 2 ^ 30 := hn
  obtain ⟨o', h1, h2, h3, -⟩ := remove_run_conv hs ho hh rfl hi hrc (by omega)
  rw [hko] at h2
  refine ⟨_, bind_eq h1, ⟨a, _, slot_append hs, upd_get ho _, h3.trans hko, ?_, h2.elem⟩⟩
  have h7 := h2.size
  simp only
  rw [h7]
  simp
  omega

/-- What `remove(i)` returns reads as the element after the one removed, always. -/
theorem remove_shows_next [Env α] (hc : ConvSame α) {s : State α} (hr : Reach s) {n i : Nat} {k : Kind} {xs : List α}
    {x : α} (hk : Scalar k) (h : Contents s n k xs) (hx : xs[i + 1]? = some x) (hn : Fits xs) :
    ∃ s', run (.decl (.remove n i)) s = .ok () s' ∧ Shows s' s.stk.length k x := by
  obtain ⟨a, ⟨o, ho, hh, hko, hrc⟩, hs⟩ := good_of_contents hr hk.1 h
  have hf : xs.length + 2 ≤ 2 ^ 30 := hn
  have hi := (List.getElem?_eq_some_iff.1 hx).1
  obtain ⟨o', h1, h2, h3, h4, -⟩ := remove_run (fun x => hc _ x (by rw [hko]; exact hk.2)) hs ho hh rfl (show i < xs.length by omega) hrc (by omega)
  exact ⟨_, bind_eq h1, .inr ⟨a, i, _, by simp [upd], upd_get ho _, h3.trans hko, h4 x hx⟩⟩

example : Contents (final prog123) 0 .int [1, 2, 3] ∧ [(1 : Int), 2, 3][0 + 1]? = some 2 ∧ Fits [(1 : Int), 2, 3] :=
  ⟨prog123_contents, rfl, by simp [Fits]⟩

/-- C41. -/
def RemoveReturns : Prop := ∀ (s : State Int) (n i : Nat) (k : Kind) (xs : List Int) (x : Int), Reach s → Scalar k →
  Contents s n k xs → xs[i]? = some x → ∀ s', run (.decl (.remove n i)) s = .ok () s' → Shows s' s.stk.length k x

/-- Removing 1 from 1 2 3 returns a reference that reads as 2. -/
theorem remove_returns_wrong : ¬ RemoveReturns := by
  intro h
  have hk : Scalar .int := ⟨⟨by decide, by decide⟩, by simp [Fits]⟩
  have hr := reach_exec prog123 .start prog123_ok
  obtain ⟨s', h1, h2⟩ := remove_shows_next (i := 0) intConv hr hk prog123_contents (x := 2) rfl (by simp [Fits])
  exact absurd (Shows.unique (h _ 0 0 .int _ 1 hr hk prog123_contents rfl s' h1) h2) (by decide)

/-! ## C42 -/

/-- Inserting a copy of an array of numbers into it gives the list with a copy of itself inserted. -/
theorem insert_copy_partial [Env α] (hc : ConvSame α) {s : State α} (hr : Reach s) {n p : Nat} {k : Kind} {xs : List α}
    (hk : Scalar k) (hk' : k ≠ .cfloat) (h : Contents s n k xs) (hp : p ≤ xs.length) (hn : Fits (xs ++ xs)) :
    ∃ s', run (.insert n (.copy n) p) s = .ok () s' ∧ Contents s' n k (xs.take p ++ xs ++ xs.drop p) ∧
      OnlyArray s s' n := by
  obtain ⟨a, ⟨o, ho, hh, hko, hrc⟩, hs⟩ := good_of_contents hr hk.1 h
  have hf : (xs ++ xs).length + 2 ≤ 2 ^ 30 := hn
  rw [List.length_append] at hf
  obtain ⟨ob, h1, h2, h3, h4⟩ := copy_run ho hh rfl (by omega) (by rw [hko]; exact hk') (by rw [hko]; exact hk.2)
  have hal := lt_of_alive ho
  have ho' : ({ mem := s.mem ++ [some ob], stk := s.stk } : State α).mem[a]? = some (some o) := by
    show (s.mem ++ [some ob])[a]? = _
    rw [List.getElem?_append_left hal]
    exact ho
  obtain ⟨o', h5, h6, h7, h8⟩ := insert_arr (s := { mem := s.mem ++ [some ob], stk := s.stk }) (fun x => hc _ x (by rw [hko]; exact hk.2)) hs ho' hh rfl
    (show a ≠ s.mem.length by omega) (by simp) h2 rfl hp hrc (by omega) (by omega)
  have hfin : ({ mem := (upd { mem := s.mem ++ [some ob], stk := s.stk } a o').mem.set s.mem.length (dec ob), stk := s.stk } : State α) =
      { mem := (upd s a o').mem ++ [none], stk := s.stk } := by
    rw [upd_append hal]
    simp [upd, dec, h4]
  have hev : eval (.copy n) s = .ok (.arr s.mem.length) { mem := s.mem ++ [some ob], stk := s.stk } :=
    (bind_eq (readSlot hs)).trans h1
  have hmap : xs.map (Env.conv ob.kind o.kind) = xs := by
    rw [h3]
    exact List.map_id'' (fun x => hc o.kind x (by rw [hko]; exact hk.2)) xs
  rw [hmap] at h6
  refine ⟨_, (bind_eq hev).trans (h5.trans (congrArg _ hfin)), ⟨a, o', hs, ?_, h7.trans hko, ?_, h6.elem⟩,
    (only_append o').onlyArray hs⟩
  · show ((upd s a o').mem ++ [none])[a]? = _
    rw [List.getElem?_append_left (by simpa [upd] using hal)]
    exact upd_get ho o'
  · rw [h6.size]
    simp only [List.length_append, List.length_take, List.length_drop]
    omega

example : Contents (final prog123) 0 .int [1, 2, 3] ∧ Fits ([(1 : Int), 2, 3] ++ [1, 2, 3]) :=
  ⟨prog123_contents, by simp [Fits]⟩

/-- Inserting the array of another variable gives the list with the other inserted, converted to the element
    type; the elements behind are converted from this type to itself; the other array is as before. -/
theorem insert_converts [Env α] {s : State α} (hr : Reach s) {n m p : Nat} {k j : Kind}
    {xs ys : List α} (hk : Number k) (hj : Number j) (h : Contents s n k xs) (h' : Contents s m j ys)
    (hd : Separate s n m) (hp : p ≤ xs.length) (hn : Fits (xs ++ ys)) :
    ∃ s', run (.insert n (.name m) p) s = .ok () s' ∧
      Contents s' n k (xs.take p ++ ys.map (Env.conv j k) ++ (xs.drop p).map (Env.conv k k)) ∧ Contents s' m j ys ∧ OnlyArray s s' n := by
  obtain ⟨a, ⟨o, ho, hh, hko, hrc⟩, hs⟩ := good_of_contents hr hk h
  obtain ⟨b, ⟨ob, hob, hhb, hkb, hrcb⟩, hsb⟩ := good_of_contents hr hj h'
  have hab : a ≠ b := hd a b hs hsb
  have hf : (xs ++ ys).length + 2 ≤ 2 ^ 30 := hn
  rw [List.length_append] at hf
  have hev : eval (.name m) s = .ok (.arr b) (upd s b { ob with rc := ob.rc + 1 }) :=
    (bind_eq (readSlot hsb)).trans (copyV_run (v := .arr b) rfl hob)
  obtain ⟨o', h5, h6, h7, h8⟩ := insert_arr_conv (s := upd s b { ob with rc := ob.rc + 1 }) hs
    ((upd_other hab.symm _).trans ho) hh rfl hab (upd_get hob _) (hhb.rc (ob.rc + 1)) rfl hp hrc (by simp) (by omega)
  have hfin : ({ mem := (upd (upd s b { ob with rc := ob.rc + 1 }) a o').mem.set b (dec { ob with rc := ob.rc + 1 }), stk := s.stk } : State α) =
      upd s a o' := by
    have h0 : dec { ob with rc := ob.rc + 1 } = some ob := by
      unfold dec
      rw [if_neg (by simp; omega)]
      rfl
    rw [h0, upd_comm hab.symm]
    show upd (upd (upd s a o') b { ob with rc := ob.rc + 1 }) b ob = _
    rw [upd_upd]
    exact upd_self ((upd_other hab _).trans hob)
  refine ⟨_, (bind_eq hev).trans (h5.trans (congrArg _ hfin)), ⟨a, o', hs, upd_get ho _, h7.trans hko, ?_, ?_⟩,
    ⟨b, ob, hsb, (upd_other hab _).trans hob, hkb, hhb.size, hhb.elem⟩, (only_upd _ _ _).onlyArray hs⟩
  · rw [h6.size]
    simp only [List.length_append, List.length_take, List.length_drop, List.length_map]
    omega
  · have := h6.elem
    rw [hko] at this
    simpa only [hkb] using this

/-- Inserting the array of another variable gives the list with the other inserted, converted to the element
    type; the other array is as before. -/
theorem insert_other_array [Env α] (hc : ConvSame α) {s : State α} (hr : Reach s) {n m p : Nat} {k j : Kind}
    {xs ys : List α} (hk : Scalar k) (hj : Number j) (h : Contents s n k xs) (h' : Contents s m j ys)
    (hd : Separate s n m) (hp : p ≤ xs.length) (hn : Fits (xs ++ ys)) :
    ∃ s', run (.insert n (.name m) p) s = .ok () s' ∧
      Contents s' n k (xs.take p ++ ys.map (Env.conv j k) ++ xs.drop p) ∧ Contents s' m j ys ∧ OnlyArray s s' n := by
  have := insert_converts hr hk.1 hj h h' hd hp hn
  rwa [map_conv fun x => hc k x hk.2] at this

/-- `x = "AB"; y = "C";` -/
def progABC : List (Stmt Int) := [.decl (.str [65, 66]), .decl (.str [67])]

example : Reach (final progABC) ∧ Contents (final progABC) 0 .char [65, 66] ∧ Contents (final progABC) 1 .char [67] ∧
    Separate (final progABC) 0 1 := by
  refine ⟨reach_exec progABC .start (by decide +kernel), ?_, ?_, ?_⟩
  · exact contents_of (a := 0) (o := ⟨.char, 2, 1, [.raw (some 65), .raw (some 66), .raw (some 0), .raw none, .raw none, .raw none, .raw none, .raw none]⟩)
      [65, 66] (by decide +kernel) (by decide +kernel) (by decide) rfl
  · exact contents_of (a := 1) (o := ⟨.char, 1, 1, [.raw (some 67), .raw (some 0), .raw none, .raw none, .raw none, .raw none, .raw none, .raw none]⟩)
      [67] (by decide +kernel) (by decide +kernel) (by decide) rfl
  · intro a b ha hb
    have h1 : (final progABC).stk = [.arr 0, .arr 1] := by decide +kernel
    rw [h1] at ha hb
    cases ha
    cases hb
    decide

/-- C42 for strings. -/
def SelfInsert : Prop := ∀ (s : State Int) (n p : Nat) (k : Kind) (xs : List Int), Reach s → Scalar k →
  Contents s n k xs → p ≤ xs.length → Fits (xs ++ xs) →
  ∃ s', run (.insert n (.name n) p) s = .ok () s' ∧ Contents s' n k (xs.take p ++ xs ++ xs.drop p)

/-- `x = "AB"; x.insert(x, 1)` gives `"AAAA"` and overwrites the terminating NUL. -/
theorem self_insert_string_wrong : ¬ SelfInsert := by
  intro h
  obtain ⟨s', h1, a, o, h2, h3, -, -, h4⟩ := h (final progAB) 0 1 .char [65, 66] progAB_reach
    ⟨⟨by decide, by decide⟩, by decide⟩ progAB_contents (by decide) (by simp [Fits])
  have h5 : run (.insert 0 (.name 0) 1) (final progAB) = .ok () ⟨[some ⟨.char, 4, 1, [.raw (some 65), .raw (some 65),
      .raw (some 65), .raw (some 65), .raw (some 65), .raw none, .raw none, .raw none]⟩], [.arr 0]⟩ := by decide +kernel
  rw [h5] at h1
  cases h1
  cases h2
  cases h3
  have h6 := h4 2 66 rfl
  cases h6

/-- `x = 1 2 3; x.insert(x, 3)` writes outside the memory of the array. -/
theorem self_insert_out_of_bounds : run (.insert 0 (.name 0) 3) (final prog123) = .ub .outOfBounds := by
  decide +kernel

/-- `x = 1 2 3; x.insert(x, 0)` reads memory never written. -/
theorem self_insert_uninitialised : run (.insert 0 (.name 0) 0) (final prog123) = .ub .uninit := by
  decide +kernel

/-! ## C43 -/

/-- C43. -/
def FailedPush : Prop := ∀ (s : State Int) (n : Nat) (k : Kind) (xs : List Int) (e : Exp Int) (x : Exn) (s' : State Int),
  Reach s → Contents s n k xs → run (.push n e) s = .thrown x s' → Contents s' n k xs

/-- Pushing a string that is no number on an array of numbers throws, but the array has grown. -/
theorem failed_push_grows : ¬ FailedPush := by
  intro h
  have h0 : run (.push 0 (.str [65])) (final prog123) = .thrown .ioFailure ⟨[some ⟨.int, 4, 1, [.raw (some 1), .raw (some 2),
    .raw (some 3), .raw none, .raw none, .raw none, .raw none, .raw none]⟩, none], [.arr 0]⟩ := by decide +kernel
  obtain ⟨a, o, h1, h2, -, h3, -⟩ := h _ 0 .int [1, 2, 3] _ _ _ (reach_exec prog123 .start prog123_ok) prog123_contents h0
  cases h1
  cases h2
  cases h3

/-- `x.push(x.pop())` on an array of strings: the element is put in the place it refers to, the push throws
    and the element is lost. -/
theorem push_pop_fails : run (.push 0 (.pop 0)) (final [.decl .nil, .push 0 (.str [65])]) =
    .thrown (.error "var::dereference(): Unknown type") ⟨[none, some ⟨.var, 1, 2, [.var (.bad .var), .var .nil, .var .nil,
      .var .nil, .var .nil, .var .nil, .var .nil, .var .nil]⟩], [.arr 1]⟩ := by
  decide +kernel

/-- A number pushed on an array of numbers never fails. -/
theorem push_number_partial [Env α] {s : State α} (hr : Reach s) {n : Nat} {k j : Kind} {xs : List α} (x : α)
    (hk : Number k) (hj : Scalar j) (h : Contents s n k xs) (hn : Fits xs) :
    ∃ s', run (.push n (.num j x)) s = .ok () s' ∧ Contents s' n k (xs ++ [Env.conv j k x]) ∧ OnlyArray s s' n := by
  obtain ⟨a, ⟨o, ho, hh, hko, hrc⟩, hs⟩ := good_of_contents hr hk h
  obtain ⟨o', h1, h2, h3, h4⟩ := push_num j x hs ho hh rfl hn hrc
  rw [hko] at h2
  exact ⟨_, (bind_eq (newNum_scalar hj x s)).trans h1, ⟨a, o', hs, upd_get ho _, h3.trans hko, by rw [h2.size]; simp, h2.elem⟩,
    (only_upd _ _ _).onlyArray hs⟩

/-- A number of another type pushed on a number is refused, and nothing has changed. -/
theorem push_mismatch_partial [Env α] {s : State α} {n : Nat} {k j : Kind} {x y : α} (hj : Scalar j) (hkj : j ≠ k)
    (hs : s.stk[n]? = some (.num k x)) :
    run (.push n (.num j y)) s = .thrown (.error "push(): Incompatible types") s := by
  refine (bind_eq (newNum_scalar hj y s)).trans ?_
  let s1 : State α := { mem := s.mem, stk := s.stk ++ [.num j y] }
  have hs1 : s1.stk[n]? = some (.num k x) := slot_append hs
  unfold push withVar
  have h1 : (readLoc (.slot n) >>= fun t => definedV t >>= fun b => if !b then (do
        if (← typeV (.num j y)) ≠ none then do attachV (.num j y); assign (.slot n) (.num j y)
        else do attachV (.num j y); setIndex (.slot n) (← sizeV t) (.num j y))
      else (do
        if (← typeV t) ≠ none ∧ (← typeV (.num j y)) ≠ (← typeV t) then throwE (.error "push(): Incompatible types")
        else do attachV (.num j y); setIndex (.slot n) (← sizeV t) (.num j y)) : M α Unit) s1 =
      .thrown (.error "push(): Incompatible types") s1 := by
    rw [bind_eq (readSlot hs1)]
    have hd : definedV (.num k x) s1 = .ok true s1 := rfl
    rw [bind_eq hd]
    simp only [Bool.not_true, Bool.false_eq_true, if_false]
    rw [bind_eq (typeV_num k x s1), bind_eq (typeV_num j y s1), bind_eq (typeV_num k x s1),
      if_pos ⟨by simp, by simpa using hkj⟩]
    rfl
  have hd : detachV (.num j y) s = .ok () s := detach_none rfl s
  simp only [s1] at h1
  simp only [h1]
  simp [hd]

example : (final [.decl (.num .int 1)] : State Int).stk[0]? = some (.num .int 1) ∧ Scalar .double := by
  refine ⟨by decide +kernel, ⟨by decide, by decide⟩, by decide⟩

/-! ## C44 -/

/-- Shifting nil returns nil; nothing changes. -/
theorem shift_nil_partial [Env α] {s : State α} {n : Nat} (hs : s.stk[n]? = some .nil) :
    eval (.shift n) s = .ok .nil s := (bind_eq (readSlot hs)).trans rfl

/-- Popping nil throws; nothing changes. -/
theorem pop_nil_partial [Env α] {s : State α} {n : Nat} (hs : s.stk[n]? = some .nil) :
    eval (.pop n) s = .thrown (.error "var::at(): uninitialised") s := by
  show pop (.slot n) s = _
  unfold pop
  rw [bind_eq (readSlot hs)]
  simp only [bind_run, M.bind, sizeV, derefV, pure_run, at', attachV, V.ptr, withVar, dereference, readTemp]
  simp [bind_run, M.bind, throwE, detachV, V.ptr, getMem, release, liftO, setMem]

/-- Shifting an empty array of any type moves a negative number of bytes: undefined. -/
theorem shift_empty_undefined [Env α] {s : State α} {n : Nat} {a : Addr} {o : Obj α} (hs : s.stk[n]? = some (.arr a))
    (ho : s.mem[a]? = some (some o)) (hz : o.size = 0) : eval (.shift n) s = .ub .outOfBounds := by
  show shift (.slot n) s = _
  unfold shift
  rw [bind_eq (readSlot hs), bind_eq (heapOf_arr a s)]
  show heapShift a s = _
  unfold heapShift
  rw [bind_eq (obj_eq ho), if_pos (.inl hz)]
  rfl

/-- Popping an empty array of any type fails an assertion. -/
theorem pop_empty_aborts [Env α] {s : State α} {n : Nat} {a : Addr} {o : Obj α} (hs : s.stk[n]? = some (.arr a))
    (ho : s.mem[a]? = some (some o)) (hz : o.size = 0) (hr : 1 ≤ o.rc) : eval (.pop n) s = .abort := by
  show pop (.slot n) s = _
  unfold pop
  have hat : at' (.arr a) (-1) s = .ok (.arr a) (upd s a { o with rc := o.rc + 1 }) := by
    unfold at'
    rw [bind_eq (attach_run (v := .arr a) rfl ho)]
    refine withVar_run (w := .arr a) (s1 := { upd s a { o with rc := o.rc + 2 } with stk := s.stk ++ [.arr a] }) ?_ rfl ?_
    · have hl : ∀ t : List (Option (Obj α)), readLoc (.slot s.stk.length) ⟨t, s.stk ++ [.arr a]⟩ = .ok (.arr a) ⟨t, s.stk ++ [.arr a]⟩ :=
        fun t => readTemp t s.stk (.arr a)
      refine (bind_eq (dereference_arr (hl _))).trans ?_
      refine (bind_eq (hl _)).trans ?_
      simp only
      unfold reference
      rw [bind_eq (typeV_arr a _)]
      simp only
      rw [if_neg (by decide)]
      have hat' := attach_run (v := (.arr a : V α)) (s := ⟨(upd s a { o with rc := o.rc + 1 }).mem, s.stk ++ [.arr a]⟩) rfl
        (upd_get ho _)
      rw [bind_eq hat']
      simp [pure_run, upd]
    · exact detach_upd (v := (.arr a : V α)) (s := s) (o := { o with rc := o.rc + 2 }) rfl ho (by simp)
  rw [bind_eq (readSlot hs), bind_eq (sizeV_arr ho), hz]
  refine (bind_eq hat).trans ?_
  unfold withVar resize
  simp [bind_run, M.bind, abortM]

/-- `x = 1; x.push(2); x.resize(0)`: an empty array. -/
def progEmpty : List (Stmt Int) := [.decl (.num .int 1), .push 0 (.num .int 2), .resize 0 0]

example : ∃ o, (final progEmpty).stk[0]? = some (.arr 0) ∧ (final progEmpty).mem[0]? = some (some o) ∧ o.size = 0 ∧ 1 ≤ o.rc :=
  ⟨⟨.int, 0, 1, [.raw (some 1), .raw (some 2), .raw none, .raw none, .raw none, .raw none, .raw none, .raw none]⟩,
    by decide +kernel, by decide +kernel, rfl, by decide⟩

/-- C44: for every empty array that can be reached, shift and pop throw or return nil. -/
def EmptyIsError : Prop := ∀ (s : State Int) (n : Nat) (k : Kind), Reach s → Contents s n k [] →
  ∀ e ∈ [.shift n, .pop n], (∃ x s', eval e s = .thrown x s') ∨ ∃ s', eval e s = .ok .nil s'

theorem empty_not_error : ¬ EmptyIsError := by
  intro h
  have h1 := h (final progEmpty) 0 .int (reach_exec progEmpty .start (by decide +kernel))
    (contents_of (a := 0) (o := ⟨.int, 0, 1, [.raw (some 1), .raw (some 2), .raw none, .raw none, .raw none, .raw none, .raw none, .raw none]⟩)
      [] (by decide +kernel) (by decide +kernel) (by decide) rfl) (.shift 0) (by simp)
  have h2 : eval (.shift 0) (final progEmpty) = .ub .outOfBounds := by decide +kernel
  rw [h2] at h1
  rcases h1 with ⟨x, s', h⟩ | ⟨s', h⟩ <;> cases h

/-! ## C49 -/

/-- Assigning a number to element `i` of an array of numbers changes this element and nothing else; the
    array grows to `i + 1` if it is shorter. -/
theorem set_element_partial [Env α] {s : State α} (hr : Reach s) {n i : Nat} {k j : Kind} {xs : List α} (x : α)
    (hk : Number k) (hj : Scalar j) (h : Contents s n k xs) (hi : i + 2 ≤ 2 ^ 30) :
    ∃ s', run (.setElem n i (.num j x)) s = .ok () s' ∧
      Partly s' n k (max xs.length (i + 1)) (fun q => if q = i then some (Env.conv j k x) else xs[q]?) ∧
      OnlyArray s s' n := by
  obtain ⟨a, ⟨o, ho, hh, hko, hrc⟩, hs⟩ := good_of_contents hr hk h
  obtain ⟨o', h1, h2, h3, h4⟩ := setIndex_num (i := i) j x hs ho hh hi hrc
  rw [hko] at h1
  refine ⟨_, (bind_eq (newNum_scalar hj x s)).trans h1, ⟨a, _, hs, upd_get ho _, h3.trans hko, h2.size, fun q y hq => ?_⟩,
    (only_upd _ _ _).onlyArray hs⟩
  simp only at hq ⊢
  by_cases hqi : q = i
  · subst hqi
    rw [if_pos rfl] at hq
    cases hq
    exact List.getElem?_set_self (by have := h2.cap; omega)
  · rw [if_neg hqi] at hq
    rw [List.getElem?_set_ne (Ne.symm hqi)]
    exact h2.elem q y hq

example : Contents (final prog123) 0 .int [1, 2, 3] ∧ Scalar .int ∧ 7 + 2 ≤ 2 ^ 30 :=
  ⟨prog123_contents, ⟨⟨by decide, by decide⟩, by decide⟩, by decide⟩

/-- "Assigning an element to itself does not throw", a consequence of C49. -/
def SelfAssignment : Prop := ∀ (s : State Int) (n i : Nat), Reach s →
  (∃ a o, s.stk[n]? = some (.arr a) ∧ s.mem[a]? = some (some o) ∧ i < o.size) →
  ∀ e s', run (.setElem n i (.elem n i)) s ≠ .thrown e s'

/-- `x.push("A"); x[0] = x[0];` throws; the element is lost. -/
theorem self_assignment_throws : ¬ SelfAssignment := by
  intro h
  have hx : exec [.decl .nil, .push 0 (.str [65])] (⟨[], []⟩ : State Int) = .ok () (final [.decl .nil, .push 0 (.str [65])]) := by
    decide +kernel
  refine h _ 0 0 (reach_exec _ .start hx) ⟨1, ⟨.var, 1, 1, [.var (.arr 0), .var .nil, .var .nil,
    .var .nil, .var .nil, .var .nil, .var .nil, .var .nil]⟩, by decide +kernel, by decide +kernel, by decide⟩
    (.error "var::dereference(): Unknown type") ⟨[none, some ⟨.var, 1, 2, [.var (.bad .var), .var .nil, .var .nil,
      .var .nil, .var .nil, .var .nil, .var .nil, .var .nil]⟩], [.arr 1]⟩ (by decide +kernel)

/-! ## C50 -/

/-- A string literal is terminated. -/
theorem literal_terminated [Env α] {s : State α} (cs : List α) (hn : Fits cs) :
    ∃ s', run (.decl (.str cs)) s = .ok () s' ∧ Contents s' s.stk.length .char cs ∧ Terminated s' s.stk.length := by
  have hf : cs.length + 2 ≤ 2 ^ 30 := hn
  obtain ⟨ob, h1, h2, h3, h4⟩ := newStr_run cs s (by omega)
  refine ⟨_, bind_eq h1, ⟨s.mem.length, ob, by simp, by simp, h3, h2.size, h2.elem⟩,
    ⟨s.mem.length, ob, by simp, by simp, h3, ?_⟩⟩
  rw [h2.size]
  exact h2.nul trivial h3

example : Fits [(65 : Int), 66] := by simp [Fits]

/-- Any sequence of valid operations on a string leaves it terminated.  The string must be terminated
    before, and no other string that shares its memory, or reference into it, is used. -/
theorem string_terminated_partial [Env α] (hc : ConvSame α) {s : State α} (hr : Reach s) {n : Nat} {xs : List α}
    (h : Contents s n .char xs) (ht : Terminated s n) (ops : List (Op α)) (hv : ValidOps .char ops xs) :
    ∃ s', Runs (ops.map (Op.stmt n .char)) s s' ∧ Contents s' n .char (listOps .char ops xs) ∧ Terminated s' n := by
  obtain ⟨a, hg⟩ := good_of_contents hr ⟨by decide, by decide⟩ h
  obtain ⟨s', h1, h2, h3⟩ := steps_ok hc (by decide) ops s xs (good_of_terminated hg ht) hv
  exact ⟨s', h1, h2.contents, h2.terminated⟩

example : Contents (final progAB) 0 .char [65, 66] ∧ Terminated (final progAB) 0 ∧
    ValidOps .char [.push .char 67, .pop, .shift, .unshift 68, .insertStr [69, 70] 1] [(65 : Int), 66] := by
  refine ⟨progAB_contents, ⟨0, ⟨.char, 2, 1, [.raw (some 65), .raw (some 66), .raw (some 0), .raw none, .raw none, .raw none, .raw none, .raw none]⟩,
    by decide +kernel, by decide +kernel, rfl, rfl⟩, ?_⟩
  simp [ValidOps, Op.Valid, Op.list, Fits, Scalar, Number]

/-- C50: strings are terminated in every state that can be reached. -/
def AlwaysTerminated : Prop := ∀ (s : State Int) (n : Nat) (xs : List Int), Reach s → Contents s n .char xs → Terminated s n

/-- `x = "AB"; var y = x.pop(); y = 'C';` overwrites the NUL of `x`. -/
theorem popped_reference_breaks_string : ¬ AlwaysTerminated := by
  intro h
  let p : List (Stmt Int) := progAB ++ [.decl (.pop 0), .assign 1 (.num .char 67)]
  have hs : (final p).stk = [.arr 0, .ref 0 1] := by decide +kernel
  have hm : (final p).mem = [some ⟨.char, 1, 2, [.raw (some 65), .raw (some 67), .raw (some 0), .raw none, .raw none, .raw none, .raw none, .raw none]⟩] := by
    decide +kernel
  obtain ⟨a, o, h1, h2, -, h3⟩ := h (final p) 0 [65] (reach_exec p .start (by decide +kernel))
    (contents_of (n := 0) (a := 0) (o := ⟨.char, 1, 2, [.raw (some 65), .raw (some 67), .raw (some 0), .raw none, .raw none, .raw none, .raw none, .raw none]⟩)
      [65] (by rw [hs]; rfl) (by rw [hm]; rfl) (by decide) rfl)
  rw [hs] at h1
  cases h1
  rw [hm] at h2
  cases h2
  cases h3

#print axioms array_is_list_partial
#print axioms unshift_own_element_wrong
#print axioms pop_assigned_partial
#print axioms pop_declared_partial
#print axioms pop_string_gives_nul
#print axioms pop_changes_later
#print axioms remove_partial
#print axioms remove_shows_next
#print axioms remove_returns_wrong
#print axioms insert_copy_partial
#print axioms insert_other_array
#print axioms self_insert_string_wrong
#print axioms self_insert_out_of_bounds
#print axioms self_insert_uninitialised
#print axioms failed_push_grows
#print axioms push_pop_fails
#print axioms push_number_partial
#print axioms push_mismatch_partial
#print axioms shift_nil_partial
#print axioms pop_nil_partial
#print axioms shift_empty_undefined
#print axioms pop_empty_aborts
#print axioms empty_not_error
#print axioms set_element_partial
#print axioms self_assignment_throws
#print axioms literal_terminated
#print axioms string_terminated_partial
#print axioms popped_reference_breaks_string

end Libube.MemProps

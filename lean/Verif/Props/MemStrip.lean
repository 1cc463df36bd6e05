import Verif.Lemmas.MemStrip
import Verif.Props.MemString

/-! # Stripping nested data (C124, C125) -/

namespace Libube.MemProps

open Mem MemSpec

variable {α : Type}

attribute [local instance] intEnv

theorem words_of_tree {mem : List (Option (Obj α))} {w : V α} {t : Nested α} {fp : List Addr} (h : IsTree mem w t fp) {P : List α → Prop} :
    t.Strings P → ∀ {d : Nat}, t.depth ≤ d → Words P mem w d fp := by
  have node : ∀ {ts : List (Nested α)} {d : Nat}, (ts.map Nested.depth).foldr max 0 + 1 ≤ d + 1 → ∀ t ∈ ts, t.depth ≤ d := by
    intro ts d hd t ht
    have := le_foldr (List.mem_map_of_mem (f := Nested.depth) ht)
    omega
  induction h with
  | num h => intro h; cases h
  | @nums a o k xs h1 h2 h3 =>
    intro hs d hd
    rw [Nested.depth] at hd
    obtain ⟨d, rfl⟩ : ∃ e, d = e + 1 := ⟨d - 1, by omega⟩
    cases hs with
    | str hp => exact .str h1 h3 hp
  | @list a o vs ts fs h1 h2 h3 h4 h5 h6 h7 ih =>
    intro hs d hd
    rw [depth_list] at hd
    obtain ⟨d, rfl⟩ : ∃ e, d = e + 1 := ⟨d - 1, by omega⟩
    cases hs with
    | list hs =>
      refine .node h1 (.inl h2) (by omega) (by omega) (fun i v hv => ⟨_, h6 i v hv, rfl⟩) fun i v f hv hf => ?_
      have hlt : i < ts.length := by have := (List.getElem?_eq_some_iff.1 hv).1; omega
      exact ih i v _ f hv (List.getElem?_eq_getElem hlt) hf (hs _ (List.getElem_mem hlt)) (node hd _ (List.getElem_mem hlt))
  | @map a o ks vs ts fs h1 h2 h3 h3' h4 h5 h6 h7 ih =>
    intro hs d hd
    rw [depth_map] at hd
    obtain ⟨d, rfl⟩ : ∃ e, d = e + 1 := ⟨d - 1, by omega⟩
    cases hs with
    | map hs =>
      refine .node h1 (.inr h2) (by omega) (by omega) (fun i v hv => ⟨_, h6 i (ks[i]'(by have := (List.getElem?_eq_some_iff.1 hv).1; omega)) v (List.getElem?_eq_getElem _) hv, rfl⟩)
        fun i v f hv hf => ?_
      have hlt : i < ts.length := by have := (List.getElem?_eq_some_iff.1 hv).1; omega
      exact ih i v _ f hv (List.getElem?_eq_getElem hlt) hf (hs _ (List.getElem_mem hlt)) (node hd _ (List.getElem_mem hlt))

theorem tree_cut {W : List α → Prop} {f : List α → List α} {P : Addr → Prop} {m1 m2 : List (Option (Obj α))} {stk : List (V α)} {own : List Addr} (hu : Cut W f P m1 m2) (hi : Inv ⟨m2, stk⟩ own)
    {w : V α} {t : Nested α} {fp : List Addr} (h : IsTree m1 w t fp) :
    t.Strings W → (∀ b ∈ w.ptr.toList, Live m2 b) → (∀ b ∈ fp, P b) → IsTree m2 w (t.mapText f) fp := by
  induction h with
  | num h => intro h; cases h
  | @nums a o k xs h1 h2 h3 =>
    intro hs hl hg
    cases hs with
    | str hp =>
      obtain ⟨o2, h4⟩ := hl a (by simp [V.ptr])
      obtain ⟨o1, e1, e2, e3, e4⟩ := hu.2 a o2 (lt_of_alive h1) h4
      rw [h1] at e1
      cases e1
      rw [mapText_str]
      exact .nums h4 h2 (e4 (hg a (by simp)) xs h3 hp)
  | @list a o vs ts fs h1 h2 h3 h4 h5 h6 h7 ih =>
    intro hs hl hg
    cases hs with
    | list hs =>
      have his := Is.cut (k := o.kind) (n := o.size) (cells := o.cells) ⟨o.rc, h1⟩ hu (by rw [h2]; decide) (hl a (by simp [V.ptr]))
      obtain ⟨rc, q⟩ := id his
      rw [mapText_list]
      refine .list q h2 (by simpa using h3) (by simpa using h4) (by simpa using h5) h6 fun i v t f e1 e2 e3 => ?_
      rw [List.getElem?_map] at e2
      obtain ⟨t', e2', rfl⟩ := Option.map_eq_some_iff.1 e2
      refine ih i v t' f e1 e2' e3 (hs _ (List.mem_of_getElem? e2')) (fun b hb => ?_) fun b hb => ?_
      · exact hi.cell_live his (List.mem_of_getElem? (h6 i v e1)) (by simpa [Cell.ptrs] using hb)
      · exact hg b (List.mem_cons_of_mem _ (List.mem_flatten.2 ⟨f, List.mem_of_getElem? e3, hb⟩))
  | @map a o ks vs ts fs h1 h2 h3 h3' h4 h5 h6 h7 ih =>
    intro hs hl hg
    cases hs with
    | map hs =>
      have his := Is.cut (k := o.kind) (n := o.size) (cells := o.cells) ⟨o.rc, h1⟩ hu (by rw [h2]; decide) (hl a (by simp [V.ptr]))
      obtain ⟨rc, q⟩ := id his
      rw [mapText_map]
      refine .map q h2 (by simpa using h3) (by simpa using h3') (by simpa using h4) (by simpa using h5) h6 fun i v t f e1 e2 e3 => ?_
      rw [List.getElem?_map] at e2
      obtain ⟨t', e2', rfl⟩ := Option.map_eq_some_iff.1 e2
      refine ih i v t' f e1 e2' e3 (hs _ (List.mem_of_getElem? e2')) (fun b hb => ?_) fun b hb => ?_
      · have hlt : i < ks.length := by have := (List.getElem?_eq_some_iff.1 e1).1; omega
        refine hi.cell_live his (List.mem_of_getElem? (h6 i ks[i] v (List.getElem?_eq_getElem hlt) e1)) ?_
        simp only [Cell.ptrs, List.mem_append]
        exact .inr hb
      · exact hg b (List.mem_cons_of_mem _ (List.mem_flatten.2 ⟨f, List.mem_of_getElem? e3, hb⟩))

theorem cut_oth {W : List α → Prop} {f : List α → List α} {fp : List Addr} {m1 m2 : List (Option (Obj α))} (h : Cut W f (· ∈ fp) m1 m2) : Oth (· ∈ fp) m1 m2 := by
  refine ⟨h.1, fun b o' hb hl ho => ?_⟩
  obtain ⟨o, e1, e2, e3, -⟩ := h.2 b o' hl ho
  exact ⟨o, e1, e2, (e3 (.inl hb)).1, (e3 (.inl hb)).2⟩

/-- C124: `strip` in place removes the space around every string, at any depth, and changes nothing else: the arrays are the same ones, so that all that share them see the change, and no other
    array changes.  A variable that is a reference to a string may become that string.
    Missing: strings of space only (`strip_space_undefined`), a string whose only holder is an array held by nothing but the reference (`strip_last_reference`), data with elements that are
    no strings (as in C120). -/
theorem strip_nested_partial [Env α] {sp : α → Bool} {s : State α} (hr : Reach s) {n : Nat} {v w : V α} (hv : s.stk[n]? = some v) (hw : Stands s n w) {t : Nested α} {fp : List Addr}
    (h : IsTree s.mem w t fp) (hs : t.Strings fun xs => Inked sp xs ∧ Fits xs) (hh : (∃ xs, t = .nums .char xs) → Held s n) {d : Nat} (hd : t.depth ≤ d) :
    ∃ s' v', strTo (stripIn sp) d n n s = .ok v' s' ∧ s'.stk = s.stk.set n v' ∧ (v' = v ∨ v' = w) ∧ (∀ m, Stands s m w → Stands s' m w) ∧
      IsTree s'.mem w (t.mapText (trim sp)) fp ∧ Beside s s' fp := by
  obtain ⟨own, hi⟩ := reach_inv hr
  obtain ⟨a, rfl⟩ := strings_arr h hs
  obtain ⟨v1, hv1, hD⟩ := stands_deno hi hw id
  rw [hv] at hv1
  cases hv1
  have hvs : ∀ b ∈ v.ptr.toList, b ∈ stkPtrs s.stk := fun b hb => mem_stkPtrs hv hb
  have hlt := (List.getElem?_eq_some_iff.1 hv).1
  have hheld : ∀ (c : Addr) (o : Obj α), (V.arr a : V α) = .arr c → s.mem[c]? = some (some o) → o.kind = .char → ∀ b j, v = .ref b j → b ∈ stkPtrs (s.stk.set n (.arr c)) := by
    rintro c o ⟨⟩ ho hk b j rfl
    have ht : ∃ xs, t = .nums .char xs := by
      cases h with
      | nums h1 h2 h3 => cases hs; exact ⟨_, rfl⟩
      | list h1 h2 => rw [ho] at h1; cases h1; rw [hk] at h2; cases h2
      | map h1 h2 => rw [ho] at h1; cases h1; rw [hk] at h2; cases h2
    obtain ⟨m, hmn, hm⟩ := hh ht b j hv
    have hm' : ∃ x : V α, (s.stk.set n (.arr a))[m]? = some x ∧ b ∈ x.ptr.toList := by
      rw [List.getElem?_set_ne (fun h => hmn h.symm)]
      rcases hm with hm | ⟨i, hm⟩
      · exact ⟨_, hm, by simp [V.ptr]⟩
      · exact ⟨_, hm, by simp [V.ptr]⟩
    obtain ⟨x, h1, h2⟩ := hm'
    exact mem_stkPtrs h1 h2
  obtain ⟨m1, v', e1, hv', i1, u1⟩ := words_ok (strip_once sp) (strip_inPlace sp) d (same := true) hi hD hD hv hvs hheld (words_of_tree h hs hd)
  obtain ⟨m2, e2, i2, k2⟩ := strTo_self (S := stripIn sp) (d := d) hv e1 i1
  have u2 := u1.kept (strip_once sp) k2
  have hsn : (s.stk.set n v')[n]? = some v' := List.getElem?_set_self hlt
  have hDn : Deno m2 v' (.arr a) := by
    rcases hv' with rfl | rfl
    · exact hD.cut u2 fun b hb => i2.stk_live (mem_stkPtrs hsn hb)
    · exact .self id
  refine ⟨⟨m2, s.stk.set n v'⟩, v', e2, rfl, hv', fun m hm => ?_, tree_cut u2 i2 h hs ?_ (fun _ h => h), beside (cut_oth u2) (tree_live h)⟩
  · by_cases hmn : m = n
    · subst hmn
      exact deno_stands (s := ⟨m2, s.stk.set m v'⟩) hsn hDn
    · obtain ⟨x, hx, hxd⟩ := stands_deno hi hm id
      have hx' : (s.stk.set n v')[m]? = some x := by rw [List.getElem?_set_ne (fun h => hmn h.symm)]; exact hx
      exact deno_stands (s := ⟨m2, s.stk.set n v'⟩) hx' (hxd.cut u2 fun b hb => i2.stk_live (mem_stkPtrs hx' hb))
  · intro b hb
    simp only [V.ptr, Option.toList_some, List.mem_singleton] at hb
    subst hb
    exact hDn.live i2 fun b hb => mem_stkPtrs hsn hb

/-- Space is 32. -/
def blank (x : Int) : Bool := x == 32

/-- `x = [" a", "b  "]; y = x; r = x.at(1)`. -/
def progSp : List (Stmt Int) := [.decl .nil, .push 0 (.str [32, 97]), .push 0 (.str [98, 32, 32]), .decl (.name 0), .decl (.at 0 1)]

theorem progSp_tree : IsTree (final progSp).mem (.arr 1) (.list [.nums .char [32, 97], .nums .char [98, 32, 32]]) [1, 0, 2] := by
  have h : (final progSp).mem = [some ⟨.char, 2, 1, [.raw (some 32), .raw (some 97), .raw (some 0), .raw none, .raw none, .raw none, .raw none, .raw none]⟩,
      some ⟨.var, 2, 3, .var (.arr 0) :: .var (.arr 2) :: List.replicate 6 (.var .nil)⟩,
      some ⟨.char, 3, 1, [.raw (some 98), .raw (some 32), .raw (some 32), .raw (some 0), .raw none, .raw none, .raw none, .raw none]⟩] := by decide +kernel
  rw [h]
  exact .list (vs := [.arr 0, .arr 2]) (fs := [[0], [2]]) rfl rfl rfl rfl rfl (two_cells rfl rfl)
    (two_trees (str_tree [32, 97] rfl rfl rfl rfl) (str_tree [98, 32, 32] rfl rfl rfl rfl))

theorem progSp_strings : (Nested.list [.nums .char [32, 97], .nums .char [98, 32, 32]]).Strings fun xs : List Int => Inked blank xs ∧ Fits xs := by
  refine .list fun t ht => ?_
  simp only [List.mem_cons, List.not_mem_nil, or_false] at ht
  rcases ht with rfl | rfl
  · exact .str ⟨.inr ⟨97, by simp, by decide⟩, by simp [Fits]⟩
  · exact .str ⟨.inr ⟨98, by simp, by decide⟩, by simp [Fits]⟩

/-- Strip `x`: `y` sees it. -/
example : ∃ s', strTo (stripIn blank) 3 0 0 (final progSp) = .ok (.arr 1) s' ∧ Stands s' 1 (.arr 1) ∧ IsTree s'.mem (.arr 1) (.list [.nums .char [97], .nums .char [98]]) [1, 0, 2] := by
  obtain ⟨s', v', h1, -, h2, h3, h4, -⟩ := strip_nested_partial (sp := blank) (reach_exec progSp .start (by decide +kernel)) (n := 0) (v := .arr 1) (by decide +kernel) (.var (by decide +kernel))
    progSp_tree progSp_strings (by rintro ⟨xs, h⟩; cases h) (d := 3) (by decide +kernel)
  obtain rfl : v' = .arr 1 := by rcases h2 with h | h <;> exact h
  refine ⟨s', h1, h3 1 (.var (by decide +kernel)), ?_⟩
  simpa [mapText_list, mapText_str, trim, blank] using h4

/-- Strip `r`, a reference that is one of two holders: it becomes the string. -/
example : ∃ s' v', strTo (stripIn blank) 3 2 2 (final progSp) = .ok v' s' ∧ Stands s' 2 (.arr 2) ∧ IsTree s'.mem (.arr 2) (.nums .char [98]) [2] := by
  have h : (final progSp).mem[2]? = some (some ⟨.char, 3, 1, [.raw (some 98), .raw (some 32), .raw (some 32), .raw (some 0), .raw none, .raw none, .raw none, .raw none]⟩) := by
    decide +kernel
  have hst : Stands (final progSp) 2 (.arr 2) :=
    .elem (a := 1) (i := 1) (o := ⟨.var, 2, 3, .var (.arr 0) :: .var (.arr 2) :: List.replicate 6 (.var .nil)⟩) (by decide +kernel) (by decide +kernel) rfl
  obtain ⟨s', v', h1, -, -, h3, h4, -⟩ := strip_nested_partial (sp := blank) (reach_exec progSp .start (by decide +kernel)) (n := 2) (v := .ref 1 1) (by decide +kernel) hst
    (str_tree [98, 32, 32] h rfl rfl rfl) (.str ⟨.inr ⟨98, by simp, by decide⟩, by simp [Fits]⟩)
    (fun _ b i hb => ⟨0, by decide, .inl (by
      have : (final progSp).stk[2]? = some (.ref 1 1) := by decide +kernel
      rw [this] at hb
      cases hb
      decide +kernel)⟩) (d := 3) (by decide +kernel)
  refine ⟨s', v', h1, h3 2 hst, ?_⟩
  simpa [mapText_str, trim, blank] using h4

/-- `x = ["a", " "]; strip(x, x)`: a string of space only is moved by a negative number of characters. -/
theorem strip_space_undefined : Reach (final [.decl .nil, .push 0 (.str [97]), .push 0 (.str [32])]) ∧
    strTo (stripIn blank) 3 0 0 (final [.decl .nil, .push 0 (.str [97]), .push 0 (.str [32])]) = .ub .outOfBounds :=
  ⟨reach_exec [.decl .nil, .push 0 (.str [97]), .push 0 (.str [32])] .start (by decide +kernel), by decide +kernel⟩

/-- `x = [" a"]; r = x.at(0); x = nil; strip(r, r)` reads what it has released. -/
theorem strip_last_reference : Reach (final [.decl .nil, .push 0 (.str [32, 97]), .decl (.at 0 0), .assign 0 .nil]) ∧
    strTo (stripIn blank) 3 1 1 (final [.decl .nil, .push 0 (.str [32, 97]), .decl (.at 0 0), .assign 0 .nil]) = .ub .useAfterFree :=
  ⟨reach_exec [.decl .nil, .push 0 (.str [32, 97]), .decl (.at 0 0), .assign 0 .nil] .start (by decide +kernel), by decide +kernel⟩

/-- `x = " a"; y = "b"; strip(x, y)` writes to what it has released. -/
theorem strip_into_undefined : Reach (final [.decl (.str [32, 97]), .decl (.str [98])]) ∧
    strTo (stripIn blank) 3 0 1 (final [.decl (.str [32, 97]), .decl (.str [98])]) = .ub .useAfterFree :=
  ⟨reach_exec [.decl (.str [32, 97]), .decl (.str [98])] .start (by decide +kernel), by decide +kernel⟩

/-- `x = " a"; y = "b"; z = y; strip(x, y)`: `z` becomes `"a"`, and `y` has a zero in it. -/
theorem strip_into_other : Reach (final [.decl (.str [32, 97]), .decl (.str [98]), .decl (.name 1)]) ∧
    ∃ s', strTo (stripIn blank) 3 0 1 (final [.decl (.str [32, 97]), .decl (.str [98]), .decl (.name 1)]) = .ok (.arr 2) s' ∧ s'.stk = [.arr 0, .arr 2, .arr 1] ∧
      IsTree s'.mem (.arr 1) (.nums .char [97]) [1] ∧ IsTree s'.mem (.arr 2) (.nums .char [0]) [2] := by
  refine ⟨reach_exec [.decl (.str [32, 97]), .decl (.str [98]), .decl (.name 1)] .start (by decide +kernel),
    match strTo (stripIn blank) 3 0 1 (final [.decl (.str [32, 97]), .decl (.str [98]), .decl (.name 1)]) with | .ok _ s => s | _ => ⟨[], []⟩, by decide +kernel, by decide +kernel, ?_, ?_⟩
  · exact str_tree [97] (o := ⟨.char, 1, 1, [.raw (some 97), .raw (some 0), .raw none, .raw none, .raw none, .raw none, .raw none, .raw none]⟩) (by decide +kernel) rfl rfl rfl
  · exact str_tree [0] (o := ⟨.char, 1, 2, [.raw (some 0), .raw (some 0), .raw none, .raw none, .raw none, .raw none, .raw none, .raw none]⟩) (by decide +kernel) rfl rfl rfl

#print axioms strip_nested_partial
#print axioms strip_space_undefined
#print axioms strip_last_reference
#print axioms strip_into_undefined
#print axioms strip_into_other

end Libube.MemProps

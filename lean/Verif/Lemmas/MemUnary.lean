import Verif.Lemmas.MemAssign
import Verif.Model.MemUnary
import Verif.Spec.MemUnary

/-! # Functions applied to every element -/

namespace Libube.Mem

open MemSpec

variable {α β : Type}

theorem up_stk (x : V α) {stk : List (V α)} {b : Addr} (hb : b ∈ stkPtrs stk) : b ∈ stkPtrs (stk ++ [x]) := by
  rw [stkPtrs_append]; exact List.mem_append_left _ hb

theorem get_append {stk : List (V α)} {n : Nat} {t : V α} (h : stk[n]? = some t) (x : V α) : (stk ++ [x])[n]? = some t := by
  rw [List.getElem?_append_left (List.getElem?_eq_some_iff.1 h).1]; exact h

theorem set_last (stk : List (V α)) (x y : V α) : (stk ++ [x]).set stk.length y = stk ++ [y] := by
  rw [List.set_append_right _ _ (Nat.le_refl _)]; simp

/-- A temporary that is a reference becomes the array it refers to. -/
theorem derefTemp [Env α] {mem : List (Option (Obj α))} {stk : List (V α)} {own : List Addr} {p j : Nat} {k : Kind} {n : Nat} {cells : List (Cell α)} {c : Cell α}
    {w : V α} (hi : Inv ⟨mem, stk ++ [.ref p j]⟩ own) (h1 : Is mem p k n cells) (h2 : Holds k) (h3 : cells[j]? = some c) (h4 : c.get false = some w) (h5 : ¬ w.IsRef) :
    ∃ mem', dereference (.slot stk.length) ⟨mem, stk ++ [.ref p j]⟩ = .ok (.cell p j) ⟨mem', stk ++ [w]⟩ ∧ Inv ⟨mem', stk ++ [w]⟩ own ∧ Kept mem mem' := by
  have hs : ∀ x : V α, (stk ++ [x])[stk.length]? = some x := fun x => by simp
  obtain ⟨e2, i2⟩ := write_slot (own' := own) hi (hs _) (.arr p) (fun _ => rfl)
  simp only [set_last] at e2 i2
  have hwl : ∀ d ∈ w.ptr.toList, Live mem d := fun d hd => hi.cell_live h1 (List.mem_of_getElem? h3) (Cell.get_ptrs h4 hd)
  obtain ⟨m3, e3, i3, k3, l3⟩ := attach_tot i2 hwl
  obtain ⟨m4, e4, i4, k4⟩ := share_slot (v := w) i3 (hs _) (t := .arr p) id (fun d hd => i3.own_live (List.mem_append_left _ hd))
  simp only [set_last] at e4 i4
  obtain ⟨m5, e5, i5, k5⟩ := detach_tot i4
  refine ⟨m5, ?_, i5, Oth.trans (Oth.trans k3 k4) k5⟩
  unfold dereference
  rw [bind_eq (readSlot (hs _))]
  simp only
  rw [bind_eq (derefLoc_var h1 h2)]
  simp only
  rw [if_neg (by simp), bind_eq e2]
  refine (bind_eq (read_place (q := false) (s := ⟨mem, stk ++ [.arr p]⟩) h1 h3 h4)).trans ?_
  have : (attachV w >>= fun _ => share (.slot stk.length) w >>= fun _ => detachV w >>= fun _ => (pure (.cell p j) : M α Loc)) ⟨mem, stk ++ [.arr p]⟩ =
      .ok (.cell p j) ⟨m5, stk ++ [w]⟩ := by
    rw [bind_eq e3, bind_eq e4, bind_eq e5]
    rfl
  cases w with
  | ref _ _ => exact absurd trivial h5
  | _ => exact this

/-- `at(i)` of what denotes an array. -/
theorem at_deno [Env α] {s : State α} {own : List Addr} {v : V α} {a : Addr} (hi : Inv s own) (hv : ∀ b ∈ v.ptr.toList, Live s.mem b)
    (hd : Deno s.mem v (.arr a)) (i : Nat) :
    ∃ mem', at' v i s = .ok (.ref a i) { s with mem := mem' } ∧ Inv { s with mem := mem' } (a :: own) ∧ Kept s.mem mem' := by
  cases hd with
  | self hr =>
    obtain ⟨o, ho⟩ := hv a (by simp [V.ptr])
    obtain ⟨m, e, i1, -, k1⟩ := at_tot (k := o.kind) (n := o.size) (cells := o.cells) hi ⟨o.rc, ho⟩ i
    exact ⟨m, e, i1, k1⟩
  | @var p j k n cells c _ h1 h2 h3 h4 h5 =>
    obtain ⟨m1, e1, i1, k1, l1⟩ := attach_tot hi hv
    have i1' : Inv ⟨m1, s.stk ++ [.ref p j]⟩ own := Inv.push (s := ⟨m1, s.stk⟩) i1
    obtain ⟨m2, e2, i2, k2⟩ := derefTemp i1' (h1.kept k1 id (l1 p h1.live)) h2 h3 h4 h5
    obtain ⟨o, ho⟩ := i2.stk_live (a := a) (by rw [stkPtrs_append]; simp [V.ptr])
    obtain ⟨m3, e3, i3, -, k3⟩ := reference_tot (k := o.kind) (n := o.size) (cells := o.cells) i2 ⟨o.rc, ho⟩ i
    obtain ⟨m4, e4, i4, k4⟩ := detach_tot (v := .arr a) (own := a :: own) (s := ⟨m3, s.stk⟩) (Inv.pop i3)
    refine ⟨m4, ?_, i4, Oth.trans (Oth.trans (Oth.trans k1 k2) k3) k4⟩
    unfold at'
    refine (bind_eq e1).trans ?_
    refine withVar_run' (stk1 := s.stk) (w := .arr a) (mem1 := m3) ?_ rfl e4
    refine (bind_eq e2).trans ?_
    exact (bind_eq (readTemp _ _ _)).trans e3

/-- The type of what denotes an array of other elements than `cdouble`. -/
theorem mathType_arr {s : State α} {v : V α} {a : Addr} {k : Kind} {n : Nat} {cells : List (Cell α)} (hd : Deno s.mem v (.arr a)) (h : Is s.mem a k n cells)
    (hk : k ≠ .cdouble) : mathType v s = .ok none s := by
  obtain ⟨u, h1, h2⟩ := derefV_tot hd
  rcases h2 with rfl | ⟨b, j, k, n, cells, x, -, -, -, h⟩
  · obtain ⟨rc, h⟩ := h
    unfold mathType typeV atypeV
    simp only [bind_run, M.bind, h1, pure_run, obj_eq h, hk, if_false]
  · cases h

theorem sizeV_deno {s : State α} {v : V α} {a : Addr} {k : Kind} {n : Nat} {cells : List (Cell α)} (hd : Deno s.mem v (.arr a)) (h : Is s.mem a k n cells) :
    sizeV v s = .ok n s := by
  obtain ⟨u, h1, h2⟩ := derefV_tot hd
  rcases h2 with rfl | ⟨b, j, k, n, cells, x, -, -, -, h⟩
  · obtain ⟨rc, h⟩ := h
    unfold sizeV
    simp only [bind_run, M.bind, h1, pure_run, obj_eq h]
  · cases h

/-- The type and value of what denotes a number. -/
theorem number_get {s : State α} {v : V α} {k : Kind} {x : α} (hd : Deno s.mem v (.num k x)) (hk : k ≠ .cdouble) :
    mathType v s = .ok (some k) s ∧ getV k v s = .ok x s := by
  cases hd with
  | self _ => simp [mathType, typeV, atypeV, getV, derefV, bind_run, M.bind, pure_run, hk]
  | @var p j k' n cells c _ h1 h2 h3 h4 h5 =>
    have e1 : derefV (.ref p j) s = .ok (.num k x) s := by
      unfold derefV
      simp only
      rw [bind_eq (derefLoc_var h1 h2)]
      simp only
      rw [show (Loc.cell p j) = place false p j from rfl, bind_eq (read_place h1 h3 h4)]
      rfl
    simp [mathType, typeV, atypeV, getV, e1, bind_run, M.bind, pure_run, hk]
  | @num p j _ n cells _ h1 h2 h3 h4 =>
    obtain ⟨rc, g⟩ := h1
    have e1 := derefV_ref_num (i := j) g h2
    simp [mathType, typeV, atypeV, getV, e1, bind_run, M.bind, pure_run, hk, obj_eq g, rawAt_run g h4]

/-- The loop, given what one turn does.  The input denotes array `a`, the output array `b`; `J i` holds before turn `i`. -/
theorem broadcast_tot [Env α] {sc : V α → Loc → M α Unit} {v u : V α} {a b : Addr} {stk : List (V α)} {own : List Addr} {m N : Nat} (hm : stk[m]? = some u)
    (hv : ∀ d ∈ v.ptr.toList, d ∈ stkPtrs stk) (J : Nat → List (Option (Obj α)) → Prop)
    (hin : ∀ {i mem}, J i mem → Deno mem v (.arr a)) (hout : ∀ {i mem}, J i mem → Deno mem u (.arr b))
    (hst : ∀ {i mem mem' stk' own'}, J i mem → Kept mem mem' → Inv ⟨mem', stk'⟩ own' → (∀ d ∈ stkPtrs stk, d ∈ stkPtrs stk') → J i mem')
    (hstep : ∀ {i mem stk' m'}, J i mem → i < N → Inv ⟨mem, stk'⟩ own → (∀ d ∈ stkPtrs stk, d ∈ stkPtrs stk') → stk'[m']? = some (.ref b i) → a ∈ stkPtrs stk' →
      ∃ mem', sc (.ref a i) (.slot m') ⟨mem, stk'⟩ = .ok () ⟨mem', stk'⟩ ∧ Inv ⟨mem', stk'⟩ own ∧ J (i + 1) mem') :
    ∀ {n i : Nat} {mem : List (Option (Obj α))}, i + n = N → J i mem → Inv ⟨mem, stk⟩ own →
      ∃ mem', broadcast sc v (.slot m) i n ⟨mem, stk⟩ = .ok () ⟨mem', stk⟩ ∧ Inv ⟨mem', stk⟩ own ∧ J N mem' := by
  intro n
  induction n with
  | zero =>
    intro i mem hn hj hi
    obtain rfl : i = N := by omega
    exact ⟨mem, rfl, hi, hj⟩
  | succ n ih =>
    intro i mem hn hj hi
    have hu : ∀ d ∈ u.ptr.toList, d ∈ stkPtrs stk := fun d hd => mem_stkPtrs hm hd
    obtain ⟨m1, e1, i1, k1⟩ := at_deno hi (fun d hd => hi.stk_live (hu d hd)) (hout hj) i
    have j1 := hst hj k1 i1 (fun _ h => h)
    have i2 : Inv ⟨m1, stk ++ [.ref b i]⟩ own := Inv.push (s := ⟨m1, stk⟩) (v := .ref b i) i1
    obtain ⟨m2, e2, i3, k2⟩ := at_deno i2 (fun d hd => i2.stk_live (up_stk _ (hv d hd))) (hin j1) i
    have j2 := hst j1 k2 i3 (fun d hd => up_stk _ hd)
    have i4 : Inv ⟨m2, stk ++ [.ref b i] ++ [.ref a i]⟩ own := Inv.push (s := ⟨m2, stk ++ [.ref b i]⟩) (v := .ref a i) i3
    obtain ⟨m3, e3, i5, j3⟩ := hstep (m' := stk.length) j2 (by omega) i4 (fun d hd => up_stk _ (up_stk _ hd)) (by simp) (by rw [stkPtrs_append]; simp [V.ptr])
    obtain ⟨m4, e4, i6, k4⟩ := withVar_tot (s := ⟨m2, stk ++ [.ref b i]⟩) (v := .ref a i) (w := .ref a i) (m1 := m3) (b := ())
      (f := fun _ => sc (.ref a i) (.slot stk.length)) e3 i5
    have j4 := hst j3 k4 i6 (fun d hd => up_stk _ hd)
    obtain ⟨m5, e5, i7, k5⟩ := withVar_tot (s := ⟨m1, stk⟩) (v := .ref b i) (w := .ref b i) (m1 := m4) (b := ())
      (f := fun lr => at' v i >>= fun t => withVar t fun _ => sc t lr) ((bind_eq e2).trans e4) i6
    obtain ⟨m6, e6, i8, j6⟩ := ih (i := i + 1) (by omega) (hst j4 k5 i7 (fun _ h => h)) i7
    refine ⟨m6, ?_, i8, j6⟩
    unfold broadcast
    refine (bind_eq (readSlot (s := ⟨mem, stk⟩) hm)).trans ?_
    refine (bind_eq e1).trans ?_
    exact (bind_eq e5).trans e6

/-! ## Nested data -/

theorem depth_list (ts : List (Nested α)) : (Nested.list ts).depth = (ts.map Nested.depth).foldr max 0 + 1 := by
  rw [Nested.depth]; simp

theorem depth_map (ks : List (V α)) (ts : List (Nested α)) : (Nested.map ks ts).depth = (ts.map Nested.depth).foldr max 0 + 1 := by
  rw [Nested.depth]; simp

theorem mapNums_list (f : Kind → α → Kind × α) (g : Kind → Kind → α → α) (ts : List (Nested α)) : (Nested.list ts).mapNums f g = .list (ts.map (Nested.mapNums f g)) := by
  rw [Nested.mapNums]; simp

theorem mapNums_map (f : Kind → α → Kind × α) (g : Kind → Kind → α → α) (ks : List (V α)) (ts : List (Nested α)) :
    (Nested.map ks ts).mapNums f g = .map ks (ts.map (Nested.mapNums f g)) := by
  rw [Nested.mapNums]; simp

theorem le_foldr {l : List Nat} {n : Nat} (h : n ∈ l) : n ≤ l.foldr max 0 := by
  induction l with
  | nil => cases h
  | cons x l ih =>
    rw [List.foldr_cons]
    cases h with
    | head => exact Nat.le_max_left _ _
    | tail _ h => exact (ih h).trans (Nat.le_max_right _ _)

theorem depth_pos (t : Nested α) : 0 < t.depth := by
  cases t with
  | list ts => rw [depth_list]; omega
  | map ks ts => rw [depth_map]; omega
  | num k x => rw [Nested.depth]; omega
  | nums k xs => rw [Nested.depth]; omega

theorem isTree_plain {mem : List (Option (Obj α))} {w : V α} {t : Nested α} {fp : List Addr} (h : IsTree mem w t fp) : ¬ w.IsRef := by
  cases h <;> exact id

theorem isTree_kept {P : Addr → Prop} {m1 m2 : List (Option (Obj α))} {stk : List (V α)} {own : List Addr} (hk : Oth P m1 m2) (hi : Inv ⟨m2, stk⟩ own) {w : V α} {t : Nested α}
    {fp : List Addr} (h : IsTree m1 w t fp) : (∀ b ∈ w.ptr.toList, Live m2 b) → (∀ b ∈ fp, ¬ P b) → IsTree m2 w t fp := by
  induction h with
  | num h => exact fun _ _ => .num h
  | @nums a o k xs h1 h2 h3 =>
    intro hl hp
    obtain ⟨rc, g⟩ := Is.kept (k := o.kind) (n := o.size) (cells := o.cells) ⟨o.rc, h1⟩ hk (hp a (by simp)) (hl a (by simp [V.ptr]))
    exact .nums g h2 h3
  | @list a o vs ts fs h1 h2 h3 h4 h5 h6 h7 ih =>
    intro hl hp
    have his := Is.kept (k := o.kind) (n := o.size) (cells := o.cells) ⟨o.rc, h1⟩ hk (hp a (by simp)) (hl a (by simp [V.ptr]))
    obtain ⟨rc, g⟩ := id his
    refine .list g h2 h3 h4 h5 h6 fun i v t f e1 e2 e3 => ih i v t f e1 e2 e3 (fun b hb => ?_) fun b hb => ?_
    · exact hi.cell_live his (List.mem_of_getElem? (h6 i v e1)) (by simpa [Cell.ptrs] using hb)
    · exact hp b (List.mem_cons_of_mem _ (List.mem_flatten.2 ⟨f, List.mem_of_getElem? e3, hb⟩))
  | @map a o ks vs ts fs h1 h2 h3 h3' h4 h5 h6 h7 ih =>
    intro hl hp
    have his := Is.kept (k := o.kind) (n := o.size) (cells := o.cells) ⟨o.rc, h1⟩ hk (hp a (by simp)) (hl a (by simp [V.ptr]))
    obtain ⟨rc, g⟩ := id his
    refine .map g h2 h3 h3' h4 h5 h6 fun i v t f e1 e2 e3 => ih i v t f e1 e2 e3 (fun b hb => ?_) fun b hb => ?_
    · have hlt : i < ks.length := by have := (List.getElem?_eq_some_iff.1 e1).1; omega
      refine hi.cell_live his (List.mem_of_getElem? (h6 i ks[i] v (List.getElem?_eq_getElem hlt) e1)) ?_
      simp only [Cell.ptrs, List.mem_append]
      exact .inr hb
    · exact hp b (List.mem_cons_of_mem _ (List.mem_flatten.2 ⟨f, List.mem_of_getElem? e3, hb⟩))

/-- An element of an array of numbers, set to the function's value of a number. -/
theorem scalar_raw [Env α] {F : Fn α} {d : Nat} {s : State α} {own : List Addr} (hi : Inv s own) {v : V α} {k : Kind} {x : α} (hd : Deno s.mem v (.num k x)) (hk : k ≠ .cdouble)
    (hg : Applies F k x) {m : Nat} {b : Addr} {i : Nat} (hm : s.stk[m]? = some (.ref b i)) {k' : Kind} {n : Nat} {cells : List (Cell α)} (hb : Is s.mem b k' n cells) (hk' : IsNum k')
    {y : Option α} (hc : cells[i]? = some (.raw y)) :
    ∃ mem', scalar F (d + 1) v (.slot m) s = .ok () ⟨mem', s.stk⟩ ∧ Inv ⟨mem', s.stk⟩ own ∧
      Is mem' b k' n (cells.set i (.raw (some (Env.conv (F.f k x).1 k' (F.f k x).2)))) ∧ Oth (· = b) s.mem mem' := by
  obtain ⟨rc, g⟩ := hb
  obtain ⟨e1, e2⟩ := number_get hd hk
  have e3 := newNum_scalar hg.2 (F.f k x).2 s
  have e4 := assignRef_num (j := (F.f k x).1) (x := (F.f k x).2) hm g hk' hc
  have i1 := (assign_keep (lk := false) (.slot m) (.num (F.f k x).1 (F.f k x).2)).inv (own := own) (by simpa [V.ptr] using hi) e4
  simp only [List.nil_append] at i1
  refine ⟨_, ?_, i1, ⟨rc, upd_get g _⟩, by simp [upd], fun c o hc' _ ho => ?_⟩
  · unfold scalar
    rw [bind_eq e1]
    simp only [hg.1, if_true]
    rw [bind_eq e2]
    exact (bind_eq e3).trans e4
  · rw [List.getElem?_set_ne (fun h => hc' h.symm)] at ho
    exact ⟨o, ho, rfl, rfl, rfl⟩

/-- Calling `broadcast`. -/
theorem scalar_arr [Env α] {F : Fn α} {d : Nat} {s : State α} {own : List Addr} (hi : Inv s own) {v : V α} {a : Addr} (hd : Deno s.mem v (.arr a))
    (hv : ∀ b ∈ v.ptr.toList, b ∈ stkPtrs s.stk) {k : Kind} {n : Nat} {cells : List (Cell α)} (h : Is s.mem a k n cells) (hk : k ≠ .cdouble) {lo : Loc}
    {Q : List (Option (Obj α)) → Prop} (hq : ∀ {m m'}, Q m → Kept m m' → Inv ⟨m', s.stk⟩ own → Q m')
    (hb : ∀ m1, Kept s.mem m1 → Inv ⟨m1, s.stk ++ [v]⟩ own → ∃ m2, broadcast (scalar F d) v lo 0 n ⟨m1, s.stk ++ [v]⟩ = .ok () ⟨m2, s.stk ++ [v]⟩ ∧ Inv ⟨m2, s.stk ++ [v]⟩ own ∧ Q m2) :
    ∃ mem', scalar F (d + 1) v lo s = .ok () ⟨mem', s.stk⟩ ∧ Inv ⟨mem', s.stk⟩ own ∧ Q mem' := by
  obtain ⟨m1, e1, i1, k1, l1⟩ := attach_tot hi (v := v) (fun b hb => hi.stk_live (hv b hb))
  have i1' : Inv ⟨m1, s.stk ++ [v]⟩ own := Inv.push (s := ⟨m1, s.stk⟩) i1
  have hd1 : Deno m1 v (.arr a) := hd.kept k1 (fun _ _ _ => id) fun b hb => i1'.stk_live (up_stk _ (hv b hb))
  obtain ⟨m2, e2, i2, q2⟩ := hb m1 k1 i1'
  obtain ⟨m3, e3, i3, k3⟩ := withVar_tot (s := ⟨m1, s.stk⟩) (v := v) (w := v) (m1 := m2) (b := ())
    (f := fun _ => sizeV v >>= fun n => broadcast (scalar F d) v lo 0 n) ((bind_eq (sizeV_deno (s := ⟨m1, s.stk ++ [v]⟩) hd1 (h.kept k1 id (l1 a h.live)))).trans e2) i2
  refine ⟨m3, ?_, i3, hq q2 k3 i3⟩
  unfold scalar
  rw [bind_eq (mathType_arr hd h hk)]
  exact (bind_eq e1).trans e3

/-! ## Calls that work on all numbers -/

theorem up_stkL (l : List (V α)) {stk : List (V α)} {b : Addr} (hb : b ∈ stkPtrs stk) : b ∈ stkPtrs (stk ++ l) := by
  simp only [stkPtrs, List.flatMap_append]; exact List.mem_append_left _ hb

theorem get_appendL {stk : List (V α)} {n : Nat} {t : V α} (h : stk[n]? = some t) (l : List (V α)) : (stk ++ l)[n]? = some t := by
  rw [List.getElem?_append_left (List.getElem?_eq_some_iff.1 h).1]; exact h

/-- What a call of `sc` with bound, input and output does for numbers and for arrays.  `P` tells on which numbers it works, `C` from which type to
    which, `φ` gives the type and value of a result, and `cv` converts it to the type of an array. -/
structure Each [Env α] (sc : Nat → V α → Loc → M α Unit) (P : Kind → α → Prop) (C : Kind → Kind → Prop) (φ : Kind → α → Kind × α) (cv : Kind → Kind → α → α) : Prop where
  same : ∀ k, C k k
  raw : ∀ {d : Nat} {s : State α} {own : List Addr}, Inv s own → ∀ {v : V α} {k : Kind} {x : α}, Deno s.mem v (.num k x) → k ≠ .cdouble → P k x →
    ∀ {k' : Kind}, C k k' → ∀ {m : Nat} {b : Addr} {i : Nat}, s.stk[m]? = some (.ref b i) → ∀ {n : Nat} {cells : List (Cell α)}, Is s.mem b k' n cells → IsNum k' →
    ∀ {y : Option α}, cells[i]? = some (.raw y) →
    ∃ mem', sc (d + 1) v (.slot m) s = .ok () ⟨mem', s.stk⟩ ∧ Inv ⟨mem', s.stk⟩ own ∧
      Is mem' b k' n (cells.set i (.raw (some (cv (φ k x).1 k' (φ k x).2)))) ∧ Oth (· = b) s.mem mem'
  var : ∀ {d : Nat} {s : State α} {own : List Addr}, Inv s own → ∀ {p j : Nat} {k : Kind} {n : Nat} {cells : List (Cell α)}, Is s.mem p k n cells → Holds k →
    ∀ {c : Cell α}, cells[j]? = some c → ∀ {k' : Kind} {x : α}, c.get false = some (.num k' x) → Scalar k' → ∀ {m : Nat}, s.stk[m]? = some (.ref p j) → P k' x →
    ∃ mem', sc (d + 1) (.ref p j) (.slot m) s = .ok () ⟨mem', s.stk⟩ ∧ Inv ⟨mem', s.stk⟩ own ∧
      Is mem' p k n (cells.set j (c.put false (.num (φ k' x).1 (φ k' x).2))) ∧ Scalar (φ k' x).1 ∧ Oth (· = p) s.mem mem'
  slot : ∀ {d : Nat} {s : State α} {own : List Addr}, Inv s own → ∀ {m : Nat} {k : Kind} {x : α}, s.stk[m]? = some (.num k x) → Scalar k → P k x →
    ∃ mem', sc (d + 1) (.num k x) (.slot m) s = .ok () ⟨mem', s.stk.set m (.num (φ k x).1 (φ k x).2)⟩ ∧ Inv ⟨mem', s.stk.set m (.num (φ k x).1 (φ k x).2)⟩ own ∧
      Scalar (φ k x).1 ∧ Kept s.mem mem'
  arr : ∀ {d : Nat} {s : State α} {own : List Addr}, Inv s own → ∀ {v : V α} {a : Addr}, Deno s.mem v (.arr a) → (∀ b ∈ v.ptr.toList, b ∈ stkPtrs s.stk) →
    ∀ {k : Kind} {n : Nat} {cells : List (Cell α)}, Is s.mem a k n cells → k ≠ .cdouble → ∀ {lo : Loc} {Q : List (Option (Obj α)) → Prop},
    (∀ {m m'}, Q m → Kept m m' → Inv ⟨m', s.stk⟩ own → Q m') →
    (∀ m1 l, Kept s.mem m1 → Inv ⟨m1, s.stk ++ l⟩ own → ∃ m2, broadcast (sc d) v lo 0 n ⟨m1, s.stk ++ l⟩ = .ok () ⟨m2, s.stk ++ l⟩ ∧ Inv ⟨m2, s.stk ++ l⟩ own ∧ Q m2) →
    ∃ mem', sc (d + 1) v lo s = .ok () ⟨mem', s.stk⟩ ∧ Inv ⟨mem', s.stk⟩ own ∧ Q mem'

/-- Functions of one number. -/
theorem each_scalar [Env α] (F : Fn α) : Each (scalar F) (Applies F) (fun _ _ => True) F.f Env.conv where
  same _ := trivial
  raw {_ _ _} hi {_ _ _} hd hk hg {_} _ {_ _ _} hm {_ _} hb hk' {_} hc := scalar_raw hi hd hk hg hm hb hk' hc
  var {d s own} hi {p j k n cells} h hk {c} hc {k' x} hw hs {m} hm hg := by
    obtain ⟨e1, e2⟩ := number_get (v := .ref p j) (.var h hk hc hw id) hs.2
    have e3 := newNum_scalar hg.2 (F.f k' x).2 s
    obtain ⟨m4, e4, i4, h4, k4⟩ := assignRef_tot (v := .num (F.f k' x).1 (F.f k' x).2) (own := own) (by simpa [V.ptr] using hi) hm h hk hc hw id (.self id) (by simp)
    refine ⟨m4, ?_, i4, h4, hg.2, k4⟩
    unfold scalar
    rw [bind_eq e1]
    simp only [hg.1, if_true]
    rw [bind_eq e2]
    exact (bind_eq e3).trans e4
  slot {d s own} hi {m k x} hv hs hg := by
    obtain ⟨e1, e2⟩ := number_get (s := s) (v := .num k x) (.self id) hs.2
    have e3 := newNum_scalar hg.2 (F.f k x).2 s
    obtain ⟨m4, e4, i4, k4⟩ := assignSlot_tot (v := .num (F.f k x).1 (F.f k x).2) (own := own) (by simpa [V.ptr] using hi) hv id (.self id)
    refine ⟨m4, ?_, i4, hg.2, k4⟩
    unfold scalar
    rw [bind_eq e1]
    simp only [hg.1, if_true]
    rw [bind_eq e2]
    refine (bind_eq e3).trans ?_
    unfold assign
    exact (bind_eq (readSlot hv)).trans e4
  arr {_ _ _} hi {v _} hd hv {_ _ _} h hk {_ _} hq hb := scalar_arr hi hd hv h hk hq fun m1 k1 i1 => hb m1 [v] k1 i1

/-- An array of numbers, in place. -/
theorem scalar_nums [Env α] {sc : Nat → V α → Loc → M α Unit} {P : Kind → α → Prop} {C : Kind → Kind → Prop} {φ : Kind → α → Kind × α} {cv : Kind → Kind → α → α} (E : Each sc P C φ cv) {d : Nat} {s : State α} {own : List Addr} (hi : Inv s own) {v : V α} {a : Addr} (hd : Deno s.mem v (.arr a)) (hva : ∀ b j, v = .ref b j → b ≠ a)
    {m : Nat} (hm : s.stk[m]? = some v) {o : Obj α} (ho : s.mem[a]? = some (some o)) {k : Kind} (hn : Number k) (hk : k ≠ .cdouble) {xs : List α} (he : Elements o k xs)
    (hg : ∀ x ∈ xs, P k x) :
    ∃ mem', sc (d + 2) v (.slot m) s = .ok () ⟨mem', s.stk⟩ ∧ Inv ⟨mem', s.stk⟩ own ∧
      (∃ o', mem'[a]? = some (some o') ∧ Elements o' k (xs.map fun x => cv (φ k x).1 k (φ k x).2)) ∧ Oth (· = a) s.mem mem' := by
  obtain ⟨rfl, hsz, hel⟩ := he
  have hC : C o.kind o.kind := E.same o.kind
  have hvs : ∀ b ∈ v.ptr.toList, b ∈ stkPtrs s.stk := fun b hb => mem_stkPtrs hm hb
  let g : α → α := fun x => cv (φ o.kind x).1 o.kind (φ o.kind x).2
  let J : Nat → List (Option (Obj α)) → Prop := fun i mem => Deno mem v (.arr a) ∧ Oth (· = a) s.mem mem ∧
    ∃ cells, Is mem a o.kind o.size cells ∧ ∀ (j : Nat) (x : α), xs[j]? = some x → cells[j]? = some (.raw (some (if j < i then g x else x)))
  -- the array stays alive as long as what denotes it
  have alive : ∀ {mem : List (Option (Obj α))} {stk : List (V α)} {own : List Addr}, Inv ⟨mem, stk⟩ own → (∀ b ∈ stkPtrs s.stk, b ∈ stkPtrs stk) → Deno mem v (.arr a) → Live mem a := by
    intro mem stk own hi hs hd
    cases hd with
    | self _ => exact hi.stk_live (hs a (hvs a (by simp [V.ptr])))
    | var h1 h2 h3 h4 h5 => exact hi.cell_live h1 (List.mem_of_getElem? h3) (Cell.get_ptrs h4 (by simp [V.ptr]))
  have hst : ∀ {i : Nat} {mem mem' : List (Option (Obj α))} {stk' : List (V α)} {own' : List Addr}, J i mem → Kept mem mem' → Inv ⟨mem', stk'⟩ own' →
      (∀ b ∈ stkPtrs s.stk, b ∈ stkPtrs stk') → J i mem' := by
    rintro i mem mem' stk' own' ⟨j1, j2, cells, j3, j4⟩ hk hi hs
    have hd' : Deno mem' v (.arr a) := j1.kept hk (fun _ _ _ => id) fun b hb => hi.stk_live (hs b (hvs b hb))
    exact ⟨hd', j2.trans hk.oth, cells, j3.kept hk id (alive hi hs hd'), j4⟩
  have res := E.arr (d := d + 1) (lo := .slot m) (Q := J o.size) hi hd hvs (k := o.kind) (n := o.size) (cells := o.cells) ⟨o.rc, ho⟩ hk
    (fun hj hk hi => hst hj hk hi (fun _ h => h)) (fun m1 l k1 i1 => by
      refine broadcast_tot (u := v) (a := a) (b := a) (N := o.size) (get_appendL hm l) (fun b hb => up_stkL l (hvs b hb)) J (fun hj => hj.1) (fun hj => hj.1)
        (fun hj hk hi hs => hst hj hk hi fun b hb => hs b (up_stkL l hb)) ?_ (Nat.zero_add _) ?_ i1
      · rintro i mem stk' m' ⟨j1, j2, cells, j3, j4⟩ hlt hi hs hm' ha
        have hlx : i < xs.length := by omega
        have hxi : xs[i]? = some xs[i] := List.getElem?_eq_getElem hlx
        have hci := j4 i _ hxi
        rw [if_neg (Nat.lt_irrefl i)] at hci
        obtain ⟨m2, e2, i2, h2, k2⟩ := E.raw (d := d) hi (v := .ref a i) (.num j3 hn hk hci) hk (hg _ (List.getElem_mem hlx)) hC hm' j3 hn hci
        refine ⟨m2, e2, i2, j1.kept k2 (fun b j hb => hva b j hb) (fun b hb => i2.stk_live (hs b (up_stkL _ (hvs b hb)))), j2.trans k2, _, h2, fun j x hx => ?_⟩
        by_cases hij : i = j
        · subst hij
          rw [hxi] at hx
          cases hx
          rw [List.getElem?_set_self (List.getElem?_eq_some_iff.1 hci).1, if_pos (Nat.lt_succ_self i)]
        · rw [List.getElem?_set_ne hij, j4 j x hx]
          by_cases hj : j < i
          · rw [if_pos hj, if_pos (by omega)]
          · rw [if_neg hj, if_neg (by omega)]
      · have hd' : Deno m1 v (.arr a) := hd.kept k1 (fun _ _ _ => id) fun b hb => i1.stk_live (up_stkL _ (hvs b hb))
        refine ⟨hd', k1.oth, o.cells, Is.kept ⟨o.rc, ho⟩ k1 id (alive i1 (fun b hb => up_stkL _ hb) hd'), fun j x hx => ?_⟩
        rw [if_neg (Nat.not_lt_zero j)]
        exact hel j x hx)
  obtain ⟨m2, e2, i2, j1, j2, cells, ⟨rc, j3⟩, j4⟩ := res
  refine ⟨m2, e2, i2, ⟨_, j3, rfl, by simpa using hsz, fun j y hy => ?_⟩, j2⟩
  rw [List.getElem?_map] at hy
  obtain ⟨x, hx, rfl⟩ := Option.map_eq_some_iff.1 hy
  have hlt := (List.getElem?_eq_some_iff.1 hx).1
  have := j4 j x hx
  rw [if_pos (by omega)] at this
  exact this

/-- What applying the function to an element of an array of vars does. -/
def ElemOk [Env α] (sc : Nat → V α → Loc → M α Unit) (P : Kind → α → Prop) (φ : Kind → α → Kind × α) (cv : Kind → Kind → α → α) (d : Nat) : Prop := ∀ {s : State α} {own : List Addr} {p j : Nat} {k : Kind} {n : Nat} {cells : List (Cell α)} {c : Cell α} {w : V α} {t : Nested α}
  {fp : List Addr} {m : Nat}, Inv s own → Is s.mem p k n cells → Holds k → cells[j]? = some c → c.get false = some w → IsTree s.mem w t fp → p ∉ fp → fp.Nodup →
  s.stk[m]? = some (.ref p j) → t.All (P) (· ≠ .cdouble) → t.depth ≤ d →
  ∃ (mem' : List (Option (Obj α))) (w' : V α), sc d (.ref p j) (.slot m) s = .ok () ⟨mem', s.stk⟩ ∧ Inv ⟨mem', s.stk⟩ own ∧ Is mem' p k n (cells.set j (c.put false w')) ∧
    IsTree mem' w' (t.mapNums φ cv) fp ∧ Oth (fun b => b = p ∨ b ∈ fp) s.mem mem'

theorem flatten_disjoint {fs : List (List Addr)} (h : fs.flatten.Nodup) {i j : Nat} (hij : i ≠ j) {f g : List Addr} (hf : fs[i]? = some f) (hg : fs[j]? = some g) {b : Addr}
    (hb : b ∈ f) : b ∉ g := by
  rw [List.nodup_flatten] at h
  have hi := (List.getElem?_eq_some_iff.1 hf)
  have hj := (List.getElem?_eq_some_iff.1 hg)
  obtain ⟨hi, rfl⟩ := hi
  obtain ⟨hj, rfl⟩ := hj
  have hp := List.pairwise_iff_getElem.1 h.2
  rcases Nat.lt_or_gt_of_ne hij with hlt | hlt
  · exact hp i j hi hj hlt hb
  · exact fun hb' => hp j i hj hi hlt hb' hb

/-- An array of vars or a map, in place. -/
theorem scalar_node [Env α] {sc : Nat → V α → Loc → M α Unit} {P : Kind → α → Prop} {C : Kind → Kind → Prop} {φ : Kind → α → Kind × α} {cv : Kind → Kind → α → α} (E : Each sc P C φ cv) {d : Nat} (hE : ElemOk sc P φ cv d) {s : State α} {own : List Addr} (hi : Inv s own) {v : V α} {a : Addr} (hd : Deno s.mem v (.arr a))
    {m : Nat} (hm : s.stk[m]? = some v) {k : Kind} {n : Nat} {cells : List (Cell α)} (h : Is s.mem a k n cells) (hk : Holds k) {vs : List (V α)} {ts : List (Nested α)}
    {fs : List (List Addr)} (hva : ∀ b j, v = .ref b j → b ∉ a :: fs.flatten) (hn : n = ts.length) (hlv : vs.length = ts.length) (hlf : fs.length = ts.length)
    (hc : ∀ (i : Nat) (w : V α), vs[i]? = some w → ∃ c, cells[i]? = some c ∧ c.get false = some w)
    (ht : ∀ (i : Nat) (w : V α) (t : Nested α) (f : List Addr), vs[i]? = some w → ts[i]? = some t → fs[i]? = some f → IsTree s.mem w t f)
    (hnd : (a :: fs.flatten).Nodup) (hall : ∀ t ∈ ts, t.All (P) (· ≠ .cdouble)) (hdep : ∀ t ∈ ts, t.depth ≤ d) :
    ∃ (mem' : List (Option (Obj α))) (cells' : List (Cell α)) (vs' : List (V α)), sc (d + 1) v (.slot m) s = .ok () ⟨mem', s.stk⟩ ∧ Inv ⟨mem', s.stk⟩ own ∧ Is mem' a k n cells' ∧ vs'.length = ts.length ∧
      (∀ (i : Nat) (c : Cell α) (w : V α), cells[i]? = some c → vs'[i]? = some w → cells'[i]? = some (c.put false w)) ∧
      (∀ (i : Nat) (w : V α) (t : Nested α) (f : List Addr), vs'[i]? = some w → ts[i]? = some t → fs[i]? = some f → IsTree mem' w (t.mapNums φ cv) f) ∧
      Oth (· ∈ a :: fs.flatten) s.mem mem' := by
  have hvs : ∀ b ∈ v.ptr.toList, b ∈ stkPtrs s.stk := fun b hb => mem_stkPtrs hm hb
  have hkc : k ≠ .cdouble := by rcases hk with rfl | rfl <;> decide
  let g : Nested α → Nested α := Nested.mapNums φ cv
  let J : Nat → List (Option (Obj α)) → Prop := fun i mem => Deno mem v (.arr a) ∧ Oth (· ∈ a :: fs.flatten) s.mem mem ∧
    ∃ (cells' : List (Cell α)) (vs' : List (V α)), Is mem a k n cells' ∧ vs'.length = ts.length ∧
      (∀ (j : Nat) (c : Cell α) (w : V α), cells[j]? = some c → vs'[j]? = some w → cells'[j]? = some (c.put false w)) ∧
      (∀ (j : Nat) (w : V α) (t : Nested α) (f : List Addr), vs'[j]? = some w → ts[j]? = some t → fs[j]? = some f → IsTree mem w (if j < i then g t else t) f)
  have alive : ∀ {mem : List (Option (Obj α))} {stk : List (V α)} {own : List Addr}, Inv ⟨mem, stk⟩ own → (∀ b ∈ stkPtrs s.stk, b ∈ stkPtrs stk) → Deno mem v (.arr a) → Live mem a := by
    intro mem stk own hi hs hd
    cases hd with
    | self _ => exact hi.stk_live (hs a (hvs a (by simp [V.ptr])))
    | var h1 h2 h3 h4 h5 => exact hi.cell_live h1 (List.mem_of_getElem? h3) (Cell.get_ptrs h4 (by simp [V.ptr]))
  -- the place of an element
  have cellOf : ∀ {j : Nat}, j < ts.length → ∃ c w0, cells[j]? = some c ∧ c.get false = some w0 := fun {j} hj =>
    let ⟨c, h1, h2⟩ := hc j vs[j] (List.getElem?_eq_getElem (by omega))
    ⟨c, _, h1, h2⟩
  have hst : ∀ {i : Nat} {mem mem' : List (Option (Obj α))} {stk' : List (V α)} {own' : List Addr}, J i mem → Kept mem mem' → Inv ⟨mem', stk'⟩ own' →
      (∀ b ∈ stkPtrs s.stk, b ∈ stkPtrs stk') → J i mem' := by
    rintro i mem mem' stk' own' ⟨j1, j2, cells', vs', j3, j4, j5, j6⟩ hk hi hs
    have hd' : Deno mem' v (.arr a) := j1.kept hk (fun _ _ _ => id) fun b hb => hi.stk_live (hs b (hvs b hb))
    have his := j3.kept hk id (alive hi hs hd')
    refine ⟨hd', j2.trans hk.oth, cells', vs', his, j4, j5, fun j w t f h1 h2 h3 => ?_⟩
    refine isTree_kept hk hi (j6 j w t f h1 h2 h3) (fun b hb => ?_) fun _ _ => id
    obtain ⟨c, w0, g1, g2⟩ := cellOf (List.getElem?_eq_some_iff.1 h2).1
    exact hi.cell_live his (List.mem_of_getElem? (j5 j c w g1 h1)) (Cell.get_ptrs (Cell.get_put g2 w) hb)
  have res := E.arr (d := d) (lo := .slot m) (Q := J n) hi hd hvs h hkc
    (fun hj hk hi => hst hj hk hi (fun _ h => h)) (fun m1 l k1 i1 => by
      refine broadcast_tot (u := v) (a := a) (b := a) (N := n) (get_appendL hm l) (fun b hb => up_stkL l (hvs b hb)) J (fun hj => hj.1) (fun hj => hj.1)
        (fun hj hk hi hs => hst hj hk hi fun b hb => hs b (up_stkL l hb)) ?_ (Nat.zero_add _) ?_ i1
      · rintro i mem stk' m' ⟨j1, j2, cells', vs', j3, j4, j5, j6⟩ hlt hi hs hm' ha
        have hit : i < ts.length := by omega
        obtain ⟨c, w0, g1, g2⟩ := cellOf hit
        have hw : vs'[i]? = some vs'[i] := List.getElem?_eq_getElem (by omega)
        have htt : ts[i]? = some ts[i] := List.getElem?_eq_getElem hit
        have hff : fs[i]? = some fs[i] := List.getElem?_eq_getElem (by omega)
        have hci := j5 i c _ g1 hw
        have htr := j6 i _ _ _ hw htt hff
        rw [if_neg (Nat.lt_irrefl i)] at htr
        have hsub : ∀ b ∈ fs[i], b ∈ fs.flatten := fun b hb => List.mem_flatten.2 ⟨_, List.getElem_mem _, hb⟩
        obtain ⟨m2, w2, e2, i2, h2, t2, k2⟩ := hE hi j3 hk hci (Cell.get_put g2 _) htr (fun hb => (List.nodup_cons.1 hnd).1 (hsub _ hb))
          ((List.nodup_flatten.1 (List.nodup_cons.1 hnd).2).1 _ (List.getElem_mem _)) hm' (hall _ (List.getElem_mem hit)) (hdep _ (List.getElem_mem hit))
        rw [Cell.put_put] at h2
        have hPsub : ∀ b, (b = a ∨ b ∈ fs[i]) → b ∈ a :: fs.flatten := by
          rintro b (rfl | hb)
          · exact List.mem_cons_self
          · exact List.mem_cons_of_mem _ (hsub b hb)
        have hcells : ∀ (j : Nat) (c' : Cell α) (w : V α), cells[j]? = some c' → (vs'.set i w2)[j]? = some w → (cells'.set i (c.put false w2))[j]? = some (c'.put false w) := by
          intro j c' w hc' hw'
          by_cases hij : i = j
          · subst hij
            rw [g1] at hc'
            cases hc'
            rw [List.getElem?_set_self (by omega)] at hw'
            cases hw'
            exact List.getElem?_set_self (List.getElem?_eq_some_iff.1 hci).1
          · rw [List.getElem?_set_ne hij] at hw' ⊢
            exact j5 j c' w hc' hw'
        refine ⟨m2, e2, i2, j1.kept k2 (fun b j hb hp => hva b j hb (hPsub b hp)) (fun b hb => i2.stk_live (hs b (up_stkL _ (hvs b hb)))), j2.trans (k2.mono hPsub), _,
          vs'.set i w2, h2, by simpa using j4, hcells, fun j w t f q1 q2 q3 => ?_⟩
        by_cases hij : i = j
        · subst hij
          rw [List.getElem?_set_self (by omega)] at q1
          cases q1
          rw [htt] at q2
          cases q2
          rw [hff] at q3
          cases q3
          rw [if_pos (Nat.lt_succ_self i)]
          exact t2
        · obtain ⟨c', w0', g1', g2'⟩ := cellOf (List.getElem?_eq_some_iff.1 q2).1
          have hcj := hcells j c' w g1' q1
          rw [List.getElem?_set_ne hij] at q1
          have hold := j6 j w t f q1 q2 q3
          have hcond : (if j < i + 1 then g t else t) = if j < i then g t else t := by
            by_cases hj : j < i
            · rw [if_pos hj, if_pos (by omega)]
            · rw [if_neg hj, if_neg (by omega)]
          rw [hcond]
          refine isTree_kept k2 i2 hold (fun b hb => i2.cell_live h2 (List.mem_of_getElem? hcj) (Cell.get_ptrs (Cell.get_put g2' w) hb)) fun b hb hp => ?_
          rcases hp with rfl | hp
          · exact (List.nodup_cons.1 hnd).1 (List.mem_flatten.2 ⟨f, List.mem_of_getElem? q3, hb⟩)
          · exact flatten_disjoint (List.nodup_cons.1 hnd).2 hij hff q3 hp hb
      · have hd' : Deno m1 v (.arr a) := hd.kept k1 (fun _ _ _ => id) fun b hb => i1.stk_live (up_stkL _ (hvs b hb))
        have his := h.kept k1 id (alive i1 (fun b hb => up_stkL _ hb) hd')
        refine ⟨hd', k1.oth, cells, vs, his, hlv, fun j c w q1 q2 => ?_, fun j w t f q1 q2 q3 => ?_⟩
        · obtain ⟨c', q3, q4⟩ := hc j w q2
          rw [q1] at q3
          cases q3
          rw [q1]
          cases c <;> simp_all [Cell.get, Cell.put]
        · rw [if_neg (Nat.not_lt_zero j)]
          obtain ⟨c', q4, q5⟩ := hc j w q1
          exact isTree_kept k1 i1 (ht j w t f q1 q2 q3) (fun b hb => i1.cell_live his (List.mem_of_getElem? q4) (Cell.get_ptrs q5 hb)) fun _ _ => id)
  obtain ⟨m2, e2, i2, j1, j2, cells', vs', j3, j4, j5, j6⟩ := res
  refine ⟨m2, cells', vs', e2, i2, j3, j4, j5, fun j w t f q1 q2 q3 => ?_, j2⟩
  have := j6 j w t f q1 q2 q3
  rw [if_pos (by rw [hn]; exact (List.getElem?_eq_some_iff.1 q2).1)] at this
  exact this

/-- Any array, in place. -/
theorem scalar_tree [Env α] {sc : Nat → V α → Loc → M α Unit} {P : Kind → α → Prop} {C : Kind → Kind → Prop} {φ : Kind → α → Kind × α} {cv : Kind → Kind → α → α} (E : Each sc P C φ cv) {d : Nat} (hE : ElemOk sc P φ cv d) {s : State α} {own : List Addr} (hi : Inv s own) {v : V α} {a : Addr} (hd : Deno s.mem v (.arr a))
    {m : Nat} (hm : s.stk[m]? = some v) {t : Nested α} {fp : List Addr} (h : IsTree s.mem (.arr a) t fp) (hva : ∀ b j, v = .ref b j → b ∉ fp) (hnd : fp.Nodup)
    (hall : t.All (P) (· ≠ .cdouble)) (hdep : t.depth ≤ d + 1) :
    ∃ mem', sc (d + 1) v (.slot m) s = .ok () ⟨mem', s.stk⟩ ∧ Inv ⟨mem', s.stk⟩ own ∧ IsTree mem' (.arr a) (t.mapNums φ cv) fp ∧ Oth (· ∈ fp) s.mem mem' := by
  cases h with
  | @nums _ o k xs h1 h2 h3 =>
    cases hall with
    | nums hk hx =>
      rw [Nested.depth] at hdep
      obtain ⟨d, rfl⟩ : ∃ e, d = e + 1 := ⟨d - 1, by omega⟩
      obtain ⟨m2, e2, i2, ⟨o', g1, g2⟩, k2⟩ := scalar_nums E (d := d) hi hd (fun b j hb he => hva b j hb (by simp [he])) hm h1 h2 hk h3 hx
      refine ⟨m2, e2, i2, ?_, k2.mono (by rintro b rfl; simp)⟩
      rw [Nested.mapNums]
      exact .nums g1 h2 g2
  | @list _ o vs ts fs h1 h2 h3 h4 h5 h6 h7 =>
    cases hall with
    | list hx =>
      rw [depth_list] at hdep
      obtain ⟨m2, cells', vs', e2, i2, ⟨rc, q1⟩, q2, q3, q4, k2⟩ := scalar_node E hE hi hd hm (k := o.kind) (n := o.size) (cells := o.cells) ⟨o.rc, h1⟩ (.inl h2) hva h3 h4 h5
        (fun i w hw => ⟨_, h6 i w hw, rfl⟩) h7 hnd hx (fun t ht => by have := le_foldr (List.mem_map_of_mem (f := Nested.depth) ht); omega)
      refine ⟨m2, e2, i2, ?_, k2⟩
      rw [mapNums_list]
      refine .list q1 h2 (by simpa using h3) (by simpa using q2) (by simpa using h5) (fun i w hw => ?_) fun i w t f r1 r2 r3 => ?_
      · have hlt : i < vs.length := by have := (List.getElem?_eq_some_iff.1 hw).1; omega
        exact q3 i _ w (h6 i _ (List.getElem?_eq_getElem hlt)) hw
      · rw [List.getElem?_map] at r2
        obtain ⟨t', r4, rfl⟩ := Option.map_eq_some_iff.1 r2
        exact q4 i w t' f r1 r4 r3
  | @map _ o ks vs ts fs h1 h2 h3 h3' h4 h5 h6 h7 =>
    cases hall with
    | map hx =>
      rw [depth_map] at hdep
      obtain ⟨m2, cells', vs', e2, i2, ⟨rc, q1⟩, q2, q3, q4, k2⟩ := scalar_node E hE hi hd hm (k := o.kind) (n := o.size) (cells := o.cells) ⟨o.rc, h1⟩ (.inr h2) hva h3 h4 h5
        (fun i w hw => ⟨_, h6 i (ks[i]'(by have := (List.getElem?_eq_some_iff.1 hw).1; omega)) w (List.getElem?_eq_getElem _) hw, rfl⟩) h7 hnd hx
        (fun t ht => by have := le_foldr (List.mem_map_of_mem (f := Nested.depth) ht); omega)
      refine ⟨m2, e2, i2, ?_, k2⟩
      rw [mapNums_map]
      refine .map q1 h2 (by simpa using h3) (by simpa using h3') (by simpa using q2) (by simpa using h5) (fun i kk w hkk hw => ?_) fun i w t f r1 r2 r3 => ?_
      · have hlt : i < vs.length := by have := (List.getElem?_eq_some_iff.1 hw).1; omega
        exact q3 i _ w (h6 i kk _ hkk (List.getElem?_eq_getElem hlt)) hw
      · rw [List.getElem?_map] at r2
        obtain ⟨t', r4, rfl⟩ := Option.map_eq_some_iff.1 r2
        exact q4 i w t' f r1 r4 r3

/-- Any element of an array of vars. -/
theorem elemOk [Env α] {sc : Nat → V α → Loc → M α Unit} {P : Kind → α → Prop} {C : Kind → Kind → Prop} {φ : Kind → α → Kind × α} {cv : Kind → Kind → α → α} (E : Each sc P C φ cv) (d : Nat) : ElemOk sc P φ cv d := by
  induction d with
  | zero =>
    intro s own p j k n cells c w t fp m _ _ _ _ _ _ _ _ _ _ hd
    have := depth_pos t
    omega
  | succ d ih =>
    intro s own p j k n cells c w t fp m hi h hk hc hw ht hp hnd hm hall hdep
    have hd : Deno s.mem (.ref p j) w := .var h hk hc hw (isTree_plain ht)
    have arr : ∀ a, w = .arr a → ∃ (mem' : List (Option (Obj α))) (w' : V α), sc (d + 1) (.ref p j) (.slot m) s = .ok () ⟨mem', s.stk⟩ ∧ Inv ⟨mem', s.stk⟩ own ∧ Is mem' p k n (cells.set j (c.put false w')) ∧
        IsTree mem' w' (t.mapNums φ cv) fp ∧ Oth (fun b => b = p ∨ b ∈ fp) s.mem mem' := by
      rintro a rfl
      obtain ⟨m2, e2, i2, t2, k2⟩ := scalar_tree E ih hi hd hm ht (fun b j' hb => by cases hb; exact hp) hnd hall hdep
      have his : Is m2 p k n cells := h.kept k2 hp (i2.stk_live (mem_stkPtrs hm (by simp [V.ptr])))
      refine ⟨m2, .arr a, e2, i2, ?_, t2, k2.mono fun b hb => .inr hb⟩
      have : cells.set j (c.put false (.arr a)) = cells := by
        have hput : c.put false (.arr a) = c := by cases c <;> simp_all [Cell.get, Cell.put]
        rw [hput]
        apply List.ext_getElem?
        intro b
        by_cases hb : j = b
        · subst hb; rw [List.getElem?_set_self (List.getElem?_eq_some_iff.1 hc).1, hc]
        · rw [List.getElem?_set_ne hb]
      rw [this]
      exact his
    cases ht with
    | @num k' x hs =>
      cases hall with
      | num hg =>
        obtain ⟨m4, e4, i4, h4, h5, k4⟩ := E.var (d := d) hi h hk hc hw hs hm hg
        refine ⟨m4, _, e4, i4, h4, ?_, k4.mono fun b hb => .inl hb⟩
        rw [Nested.mapNums]
        exact .num h5
    | nums h1 h2 h3 => exact arr _ rfl
    | list h1 h2 h3 h4 h5 h6 h7 => exact arr _ rfl
    | map h1 h2 h3 h3' h4 h5 h6 h7 => exact arr _ rfl

/-- From one array of numbers to another. -/
theorem scalar_numsTo [Env α] {sc : Nat → V α → Loc → M α Unit} {P : Kind → α → Prop} {C : Kind → Kind → Prop} {φ : Kind → α → Kind × α} {cv : Kind → Kind → α → α} (E : Each sc P C φ cv) {d : Nat} {s : State α} {own : List Addr} (hi : Inv s own) {a b : Addr} (ha : a ∈ stkPtrs s.stk) (hab : a ≠ b) {m : Nat}
    (hm : s.stk[m]? = some (.arr b)) {o : Obj α} (ho : s.mem[a]? = some (some o)) {k : Kind} (hn : Number k) (hk : k ≠ .cdouble) {xs : List α} (he : Elements o k xs)
    (hg : ∀ x ∈ xs, P k x) {k' : Kind} (hC : C k k') (hk' : IsNum k') {n' : Nat} {cells : List (Cell α)} (hb : Is s.mem b k' n' cells) (hcells : ∀ j, j < xs.length → ∃ y, cells[j]? = some (.raw y)) :
    ∃ mem' cells', sc (d + 2) (.arr a) (.slot m) s = .ok () ⟨mem', s.stk⟩ ∧ Inv ⟨mem', s.stk⟩ own ∧ Is mem' b k' n' cells' ∧
      (∀ (j : Nat) (x : α), xs[j]? = some x → cells'[j]? = some (.raw (some (cv (φ k x).1 k' (φ k x).2)))) ∧
      (∀ (j : Nat), xs.length ≤ j → cells'[j]? = cells[j]?) ∧ Oth (· = b) s.mem mem' := by
  obtain ⟨rfl, hsz, hel⟩ := he
  have hbs : b ∈ stkPtrs s.stk := mem_stkPtrs hm (by simp [V.ptr])
  let g : α → α := fun x => cv (φ o.kind x).1 k' (φ o.kind x).2
  let J : Nat → List (Option (Obj α)) → Prop := fun i mem => Is mem a o.kind o.size o.cells ∧ Oth (· = b) s.mem mem ∧
    ∃ cells' : List (Cell α), Is mem b k' n' cells' ∧ (∀ j, j < xs.length → ∃ y, cells'[j]? = some (.raw y)) ∧
      (∀ (j : Nat) (x : α), j < i → xs[j]? = some x → cells'[j]? = some (.raw (some (g x)))) ∧ ∀ (j : Nat), xs.length ≤ j → cells'[j]? = cells[j]?
  have hst : ∀ {i : Nat} {mem mem' : List (Option (Obj α))} {stk' : List (V α)} {own' : List Addr}, J i mem → Kept mem mem' → Inv ⟨mem', stk'⟩ own' →
      (∀ b ∈ stkPtrs s.stk, b ∈ stkPtrs stk') → J i mem' := by
    rintro i mem mem' stk' own' ⟨j1, j2, cells', j3, j4, j5, j6⟩ hk hi hs
    exact ⟨j1.kept hk id (hi.stk_live (hs a ha)), j2.trans hk.oth, cells', j3.kept hk id (hi.stk_live (hs b hbs)), j4, j5, j6⟩
  have res := E.arr (d := d + 1) (lo := .slot m) (Q := J o.size) hi (v := .arr a) (.self id) (fun c hc => by simp [V.ptr] at hc; subst hc; exact ha)
    (k := o.kind) (n := o.size) (cells := o.cells) ⟨o.rc, ho⟩ hk (fun hj hk hi => hst hj hk hi (fun _ h => h)) (fun m1 l k1 i1 => by
      refine broadcast_tot (u := .arr b) (a := a) (b := b) (N := o.size) (get_appendL hm l) (fun c hc => by simp [V.ptr] at hc; subst hc; exact up_stkL _ ha) J
        (fun _ => .self id) (fun _ => .self id) (fun hj hk hi hs => hst hj hk hi fun b hb => hs b (up_stkL _ hb)) ?_ (Nat.zero_add _) ?_ i1
      · rintro i mem stk' m' ⟨j1, j2, cells', j3, j4, j5, j6⟩ hlt hi hs hm' ha'
        have hlx : i < xs.length := by omega
        have hxi : xs[i]? = some xs[i] := List.getElem?_eq_getElem hlx
        obtain ⟨y, hy⟩ := j4 i hlx
        obtain ⟨m2, e2, i2, h2, k2⟩ := E.raw (d := d) hi (v := .ref a i) (.num j1 hn hk (hel i _ hxi)) hk (hg _ (List.getElem_mem hlx)) hC hm' j3 hk' hy
        have hli := (List.getElem?_eq_some_iff.1 hy).1
        refine ⟨m2, e2, i2, j1.kept k2 hab (i2.stk_live ha'), j2.trans k2, _, h2, fun j hj => ?_, fun j x hj hx => ?_, fun j hj => ?_⟩
        · by_cases hij : i = j
          · subst hij
            exact ⟨_, List.getElem?_set_self hli⟩
          · rw [List.getElem?_set_ne hij]
            exact j4 j hj
        · by_cases hij : i = j
          · subst hij
            rw [hxi] at hx
            cases hx
            exact List.getElem?_set_self hli
          · rw [List.getElem?_set_ne hij]
            exact j5 j x (by omega) hx
        · rw [List.getElem?_set_ne (by omega)]
          exact j6 j hj
      · exact ⟨Is.kept ⟨o.rc, ho⟩ k1 id (i1.stk_live (up_stkL _ ha)), k1.oth, cells, hb.kept k1 id (i1.stk_live (up_stkL _ hbs)), hcells, fun _ _ h => absurd h (Nat.not_lt_zero _),
          fun _ _ => rfl⟩)
  obtain ⟨m2, e2, i2, j1, j2, cells', j3, j4, j5, j6⟩ := res
  exact ⟨m2, cells', e2, i2, j3, fun j x hx => j5 j x (by have := (List.getElem?_eq_some_iff.1 hx).1; omega) hx, j6, j2⟩

end Libube.Mem

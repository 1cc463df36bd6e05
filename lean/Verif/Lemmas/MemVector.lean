import Verif.Lemmas.MemArith

/-! # The loops over the elements of arrays of numbers -/

namespace Libube.Mem

open MemSpec

variable {α β : Type}

/-- The number at a place. -/
def HasNum (mem : List (Option (Obj α))) (b : Addr) (l : Nat) (y : α) : Prop := ∃ p : Obj α, mem[b]? = some (some p) ∧ p.cells[l]? = some (.raw (some y))

theorem setPtr_arr {s : State α} {m : Nat} {a : Addr} (hm : s.stk[m]? = some (.arr a)) {o : Obj α} (h : s.mem[a]? = some (some o)) {i : Nat} {y : Option α} (hc : o.cells[i]? = some (.raw y))
    (z : α) : setPtr o.kind (.slot m) i z s = .ok () (upd s a { o with cells := o.cells.set i (.raw (some z)) }) := by
  unfold setPtr
  rw [bind_eq (readSlot hm)]
  simp only [setPlain]
  rw [bind_eq (readSlot hm)]
  simp only [setTyped]
  rw [bind_eq (obj_eq h)]
  simp only [if_true]
  exact setRaw_run h hc z

theorem hasNum_upd {s : State α} {a : Addr} {o : Obj α} (h : s.mem[a]? = some (some o)) {i : Nat} {z : α} {b : Addr} {l : Nat} (hl : l ≠ i) {y : α} :
    HasNum (upd s a { o with cells := o.cells.set i (.raw (some z)) }).mem b l y ↔ HasNum s.mem b l y := by
  by_cases hab : a = b
  · subst hab
    constructor
    · rintro ⟨p, h1, h2⟩
      rw [upd_get h] at h1
      cases h1
      exact ⟨o, h, by simpa [List.getElem?_set_ne (Ne.symm hl)] using h2⟩
    · rintro ⟨p, h1, h2⟩
      rw [h] at h1
      cases h1
      exact ⟨_, upd_get h _, by simpa [List.getElem?_set_ne (Ne.symm hl)] using h2⟩
  · unfold HasNum
    rw [upd_other hab]

theorem elemAt_arr {s : State α} {b : Addr} {l : Nat} {y : α} (h : HasNum s.mem b l y) : elemAt (.arr b) l s = .ok y s := by
  obtain ⟨p, h1, h2⟩ := h
  exact (rawAt_run h1 h2)

theorem hasNum_unique {mem : List (Option (Obj α))} {b : Addr} {l : Nat} {x y : α} (h1 : HasNum mem b l x) (h2 : HasNum mem b l y) : x = y := by
  obtain ⟨p, f1, f2⟩ := h1
  obtain ⟨q, f3, f4⟩ := h2
  rw [f1] at f3
  cases f3
  rw [f2] at f4
  simpa using f4

/-- Every element with the same number; the output may be the input. -/
theorem scaleLoop_run (F : Bin α) {y : α} {m : Nat} {a c : Addr} : ∀ (n j : Nat) {s : State α} {o : Obj α}, s.stk[m]? = some (.arr c) → s.mem[c]? = some (some o) →
    (∀ l, j ≤ l → l < j + n → ∃ x u, HasNum s.mem a l x ∧ o.cells[l]? = some (.raw u) ∧ F.ok o.kind x y = true) →
    ∃ cells, scaleLoop F o.kind (.arr a) y (.slot m) j n s = .ok () (upd s c { o with cells := cells }) ∧
      (∀ l x, j ≤ l → l < j + n → HasNum s.mem a l x → cells[l]? = some (.raw (some (F.f o.kind x y)))) ∧
      ∀ l, (l < j ∨ j + n ≤ l) → cells[l]? = o.cells[l]? := by
  intro n
  induction n with
  | zero => exact fun j s o hm h _ => ⟨o.cells, by rw [upd_self h]; rfl, fun l x h1 h2 => by omega, fun l _ => rfl⟩
  | succ n ih =>
    intro j s o hm h hx
    obtain ⟨x, u, hx0, hx1, hx2⟩ := hx j (le_refl _) (by omega)
    have e1 : elemAt (.arr a) j s = .ok x s := elemAt_arr hx0
    have e2 : F.apply o.kind x y s = .ok (F.f o.kind x y) s := by unfold Bin.apply; rw [if_pos hx2]; rfl
    have e3 := setPtr_arr hm h hx1 (F.f o.kind x y)
    obtain ⟨cells, e4, g1, g2⟩ := ih (j + 1) (s := upd s c { o with cells := o.cells.set j (.raw (some (F.f o.kind x y))) }) hm (upd_get h _) (fun l h1 h2 => by
      obtain ⟨x', u', h3', h3, h4⟩ := hx l (by omega) (by omega)
      exact ⟨x', u', (hasNum_upd h (by omega)).2 h3', by rw [← h3]; exact List.getElem?_set_ne (by omega), h4⟩)
    refine ⟨cells, ?_, fun l x' h1 h2 h3 => ?_, fun l hl => ?_⟩
    · refine (bind_eq e1).trans ((bind_eq e2).trans ((bind_eq e3).trans ?_))
      rw [upd_upd] at e4
      exact e4
    · by_cases hlj : l = j
      · subst hlj
        cases hasNum_unique h3 hx0
        rw [g2 l (by omega)]
        exact List.getElem?_set_self (List.getElem?_eq_some_iff.1 hx1).1
      · exact g1 l x' (by omega) (by omega) ((hasNum_upd h (by omega)).2 h3)
    · rw [g2 l (by omega)]
      exact List.getElem?_set_ne (by omega)

/-- Every element with the one of another array; the output may be any of them. -/
theorem vecLoop_run (F : Bin α) {m : Nat} {a b c : Addr} : ∀ (n j : Nat) {s : State α} {o : Obj α}, s.stk[m]? = some (.arr c) → s.mem[c]? = some (some o) →
    (∀ l, j ≤ l → l < j + n → ∃ x y u, HasNum s.mem a l x ∧ HasNum s.mem b l y ∧ o.cells[l]? = some (.raw u) ∧ F.ok o.kind x y = true) →
    ∃ cells, vecLoop F o.kind (.arr a) (.arr b) (.slot m) j n s = .ok () (upd s c { o with cells := cells }) ∧
      (∀ l x y, j ≤ l → l < j + n → HasNum s.mem a l x → HasNum s.mem b l y → cells[l]? = some (.raw (some (F.f o.kind x y)))) ∧
      ∀ l, (l < j ∨ j + n ≤ l) → cells[l]? = o.cells[l]? := by
  intro n
  induction n with
  | zero => exact fun j s o hm h _ => ⟨o.cells, by rw [upd_self h]; rfl, fun l x y h1 h2 => by omega, fun l _ => rfl⟩
  | succ n ih =>
    intro j s o hm h hx
    obtain ⟨x, y, u, hx0, hy0, hx1, hx2⟩ := hx j (le_refl _) (by omega)
    have e0 : elemAt (.arr b) j s = .ok y s := elemAt_arr hy0
    have e1 : elemAt (.arr a) j s = .ok x s := elemAt_arr hx0
    have e2 : F.apply o.kind x y s = .ok (F.f o.kind x y) s := by unfold Bin.apply; rw [if_pos hx2]; rfl
    have e3 := setPtr_arr hm h hx1 (F.f o.kind x y)
    obtain ⟨cells, e4, g1, g2⟩ := ih (j + 1) (s := upd s c { o with cells := o.cells.set j (.raw (some (F.f o.kind x y))) }) hm (upd_get h _) (fun l h1 h2 => by
      obtain ⟨x', y', u', h3, h3', h3'', h4⟩ := hx l (by omega) (by omega)
      exact ⟨x', y', u', (hasNum_upd h (by omega)).2 h3, (hasNum_upd h (by omega)).2 h3', by rw [← h3'']; exact List.getElem?_set_ne (by omega), h4⟩)
    refine ⟨cells, ?_, fun l x' y' h1 h2 h3 h3' => ?_, fun l hl => ?_⟩
    · refine (bind_eq e0).trans ((bind_eq e1).trans ((bind_eq e2).trans ((bind_eq e3).trans ?_)))
      rw [upd_upd] at e4
      exact e4
    · by_cases hlj : l = j
      · subst hlj
        cases hasNum_unique h3 hx0
        cases hasNum_unique h3' hy0
        rw [g2 l (by omega)]
        exact List.getElem?_set_self (List.getElem?_eq_some_iff.1 hx1).1
      · exact g1 l x' y' (by omega) (by omega) ((hasNum_upd h (by omega)).2 h3) ((hasNum_upd h (by omega)).2 h3')
    · rw [g2 l (by omega)]
      exact List.getElem?_set_ne (by omega)

/-- Making the array for the result, and what happens to it. -/
theorem arithNew_wrap [Env α] {F : Bin α} {d n : Nat} {e : Exp α} {s : State α} {own : List Addr} (hi : Inv s own) {a : Addr} {w : V α} {m0 : List (Option (Obj α))}
    (he : eval e s = .ok w ⟨m0, s.stk⟩) (i0 : Inv ⟨m0, s.stk⟩ (w.ptr.toList ++ own)) (k0 : Kept s.mem m0) (l0 : ∀ b, Live s.mem b → Live m0 b) (hv : s.stk[n]? = some (.arr a))
    {k : Kind} {sz : Nat} {cells0 : List (Cell α)} (h : Is s.mem a k sz cells0) (hk : Number k) (hsz : sz + 2 ≤ 2 ^ 30) {R : List (Cell α) → Prop}
    (hb : ∀ m3 cells, Inv ⟨m3, s.stk ++ [w] ++ [.arr m0.length]⟩ own → Kept m0 m3 → Is m3 m0.length k sz cells → (∀ j, j < sz → ∃ y, cells[j]? = some (.raw y)) →
      ∃ m4 cells', arith F d (.arr a) w (.slot (s.stk.length + 1)) ⟨m3, s.stk ++ [w] ++ [.arr m0.length]⟩ = .ok () ⟨m4, s.stk ++ [w] ++ [.arr m0.length]⟩ ∧
        Inv ⟨m4, s.stk ++ [w] ++ [.arr m0.length]⟩ own ∧ Is m4 m0.length k sz cells' ∧ R cells' ∧ Oth (· = m0.length) m3 m4) :
    ∃ m6 cells', eval (.arith F d n e) s = .ok (.arr m0.length) ⟨m6, s.stk⟩ ∧ Is m6 m0.length k sz cells' ∧ R cells' ∧ Kept s.mem m6 := by
  have i1 : Inv ⟨m0, s.stk ++ [w]⟩ own := Inv.push (s := ⟨m0, s.stk⟩) i0
  have hlt := (List.getElem?_eq_some_iff.1 hv).1
  have hv1 : (s.stk ++ [w])[n]? = some (.arr a) := by rw [List.getElem?_append_left hlt]; exact hv
  obtain ⟨rc, g⟩ := h.kept k0 id (l0 a h.live)
  obtain ⟨cells, c1, c2, c3, -, -⟩ := resizeObj_run (o := (⟨k, 0, 1, []⟩ : Obj α)) (m := sz) hk (by simp) (by omega)
  have e1 : newHeap sz (some k) ⟨m0, s.stk ++ [w]⟩ = .ok m0.length ⟨m0 ++ [some ⟨k, sz, 1, cells⟩], s.stk ++ [w]⟩ := by
    unfold newHeap
    simp only [Option.getD_some, c1]
    rfl
  obtain ⟨i2, -, -⟩ := newHeap_ok e1 i1
  have k1 : Kept m0 (m0 ++ [some ⟨k, sz, 1, cells⟩]) := ⟨by simp, fun b o' _ hb ho => by
    rw [List.getElem?_append_left hb] at ho
    exact ⟨o', ho, rfl, rfl, rfl⟩⟩
  have i3 : Inv ⟨m0 ++ [some ⟨k, sz, 1, cells⟩], s.stk ++ [w] ++ [.nil]⟩ (m0.length :: own) :=
    Inv.push (s := ⟨m0 ++ [some ⟨k, sz, 1, cells⟩], s.stk ++ [w]⟩) (v := .nil) (by simpa [V.ptr] using i2)
  have hs2 : (s.stk ++ [w] ++ [(.nil : V α)])[(s.stk ++ [w]).length]? = some .nil := by simp
  obtain ⟨m3, e3, i4, k3⟩ := assignSlot_tot (v := .arr m0.length) (own := own) i3 hs2 id (.self id)
  simp only [set_last] at e3 i4
  have hlast : m0.length ∈ stkPtrs (s.stk ++ [w] ++ [(.arr m0.length : V α)]) := by rw [stkPtrs_append]; simp [V.ptr]
  have hob : Is m3 m0.length k sz cells := Is.kept (m1 := m0 ++ [some ⟨k, sz, 1, cells⟩]) ⟨1, by simp⟩ k3 id (i4.stk_live hlast)
  obtain ⟨m4, cells', e4, i5, q1, q2, k4⟩ := hb m3 cells i4 (Oth.trans k1 k3) hob (fun j hj => by
    have hlt : j < cells.length := by omega
    obtain ⟨y, hy⟩ := c2 _ (List.getElem_mem hlt)
    exact ⟨y, by rw [List.getElem?_eq_getElem hlt, hy]⟩)
  obtain ⟨m5, e5, i6, k5, l5⟩ := attach_tot (s := ⟨m4, s.stk ++ [w] ++ [.arr m0.length]⟩) i5 (v := .arr m0.length) (fun c hc => i5.stk_live (by simp [V.ptr] at hc; subst hc; exact hlast))
  obtain ⟨m6, e6, i7, k6⟩ := detach_tot (v := .arr m0.length) (own := m0.length :: own) (s := ⟨m5, s.stk ++ [w]⟩) (Inv.pop i6)
  obtain ⟨m7, e7, i8, k7⟩ := detach_tot (v := w) (own := m0.length :: own) (s := ⟨m6, s.stk⟩) (Inv.pop i7)
  have kk : Kept m0 m4 := by
    have h12 := Oth.trans k1 k3
    refine ⟨h12.1.trans k4.1, fun b o' _ hb ho => ?_⟩
    obtain ⟨o2, f1, f2, f3, f4⟩ := k4.2 b o' (by show b ≠ _; omega) (Nat.lt_of_lt_of_le hb h12.1) ho
    obtain ⟨o1, f5, f6, f7, f8⟩ := h12.2 b o2 id hb f1
    exact ⟨o1, f5, f2.trans f6, f3.trans f7, f4.trans f8⟩
  refine ⟨m7, cells', ?_, ((q1.kept k5 id (l5 _ q1.live)).kept k6 id (i7.own_live (by simp))).kept k7 id (i8.own_live (by simp)), q2, (((k0.trans kk).trans k5).trans k6).trans k7⟩
  refine (bind_eq he).trans ?_
  unfold arithNew
  refine withVar_run' (s := ⟨m0, s.stk⟩) (stk1 := s.stk) (w := w) (mem1 := m6) ?_ rfl e7
  refine (bind_eq (readSlot (s := ⟨m0, s.stk ++ [w]⟩) hv1)).trans ?_
  have hh : heapOf (.arr a) ⟨m0, s.stk ++ [w]⟩ = .ok (some a) ⟨m0, s.stk ++ [w]⟩ := rfl
  refine (bind_eq hh).trans ?_
  simp only
  refine (bind_eq (obj_eq g)).trans ?_
  refine (bind_eq e1).trans ?_
  refine (bind_eq (show (pure (V.arr m0.length) : M α (V α)) ⟨m0 ++ [some ⟨k, sz, 1, cells⟩], s.stk ++ [w]⟩ = .ok _ _ from rfl)).trans ?_
  refine withVar_run' (s := ⟨m0 ++ [some ⟨k, sz, 1, cells⟩], s.stk ++ [w]⟩) (stk1 := s.stk ++ [w]) (w := .arr m0.length) (mem1 := m5) ?_ rfl e6
  have ea : assign (.slot (s.stk ++ [w]).length) (.arr m0.length) ⟨m0 ++ [some ⟨k, sz, 1, cells⟩], s.stk ++ [w] ++ [.nil]⟩ = .ok () ⟨m3, s.stk ++ [w] ++ [.arr m0.length]⟩ := by
    unfold assign
    exact (bind_eq (readTemp _ _ _)).trans e3
  refine (bind_eq ea).trans ?_
  rw [show (s.stk ++ [w]).length = s.stk.length + 1 by simp]
  refine (bind_eq e4).trans ?_
  rw [show s.stk.length + 1 = (s.stk ++ [w]).length by simp]
  refine (bind_eq (readTemp _ _ _)).trans ?_
  unfold copyV
  exact (bind_eq e5).trans rfl

/-- A new number. -/
theorem arithNew_number [Env α] {F : Bin α} {d n : Nat} {e : Exp α} {s : State α} {own : List Addr} {v w : V α} {k j : Kind} {x y : α} {m0 : List (Option (Obj α))}
    (he : eval e s = .ok w ⟨m0, s.stk⟩) (i0 : Inv ⟨m0, s.stk⟩ (w.ptr.toList ++ own)) (hv : s.stk[n]? = some v) (hd0 : Deno m0 v (.num k x)) (hs : Scalar k) (hw : Deno m0 w (.num j y))
    (hwp : ∀ b ∈ w.ptr.toList, b ∈ stkPtrs s.stk) (ht : Takes F j y k x) :
    ∃ m6, eval (.arith F (d + 1) n e) s = .ok (.num k (F.f k x (Env.conv j k y))) ⟨m6, s.stk⟩ ∧ Kept m0 m6 := by
  have i1 : Inv ⟨m0, s.stk ++ [w]⟩ own := Inv.push (s := ⟨m0, s.stk⟩) i0
  have hlt := (List.getElem?_eq_some_iff.1 hv).1
  have hv1 : (s.stk ++ [w])[n]? = some v := by rw [List.getElem?_append_left hlt]; exact hv
  have hvl : ∀ b ∈ v.ptr.toList, b ∈ stkPtrs (s.stk ++ [w]) := fun b hb => mem_stkPtrs hv1 hb
  have hh : heapOf v ⟨m0, s.stk ++ [w]⟩ = .ok none ⟨m0, s.stk ++ [w]⟩ := by
    obtain ⟨u, h1, h2⟩ := derefV_tot (s := ⟨m0, s.stk ++ [w]⟩) hd0
    unfold heapOf
    rw [bind_eq h1]
    rcases h2 with rfl | ⟨b, j, k, n, cells, x, rfl, -⟩ <;> rfl
  obtain ⟨m1, e1, i2, k1, l1⟩ := attach_tot i1 (v := v) (fun b hb => i1.stk_live (hvl b hb))
  have hd1 : Deno m1 v (.num k x) := hd0.kept k1 (fun _ _ _ => id) fun b hb => l1 b (i1.stk_live (hvl b hb))
  have i3 : Inv ⟨m1, s.stk ++ [w] ++ [.nil]⟩ (v.ptr.toList ++ own) := Inv.push (s := ⟨m1, s.stk ++ [w]⟩) (v := .nil) (by simpa [V.ptr] using i2)
  have hs2 : (s.stk ++ [w] ++ [(.nil : V α)])[(s.stk ++ [w]).length]? = some .nil := by simp
  obtain ⟨m3, e3, i4, k3⟩ := assignSlot_tot (v := v) (own := own) i3 hs2 id hd1
  simp only [set_last] at e3 i4
  have lv : ∀ b ∈ v.ptr.toList, Live m3 b := fun b hb => i4.stk_live (up_stk _ (hvl b hb))
  have lw : ∀ b ∈ w.ptr.toList, Live m3 b := fun b hb => i4.stk_live (up_stk _ (up_stk _ (hwp b hb)))
  have k13 := Oth.trans k1 k3
  have ea := arith_num (F := F) (d := d) (s := ⟨m3, s.stk ++ [w] ++ [.num k x]⟩) (hd0.kept k13 (fun _ _ _ => id) lv) hs.2 (hw.kept k13 (fun _ _ _ => id) lw) (takes_op ht.1 ht.2.1) ht.2.2
    (.slot (s.stk ++ [w]).length)
  obtain ⟨m4, e4, i5, k4⟩ := store_slot (F := F) (s := ⟨m3, s.stk ++ [w] ++ [.num k x]⟩) (m := (s.stk ++ [w]).length) i4 List.getElem?_concat_length hs (F.f k x (Env.conv j k y))
  simp only [set_last] at e4 i5
  obtain ⟨m7, e7, i8, k7⟩ := detach_tot (v := w) (own := own) (s := ⟨m4, s.stk⟩) (Inv.pop (by simpa [V.ptr] using Inv.pop i5))
  refine ⟨m7, ?_, (k13.trans k4).trans k7⟩
  refine (bind_eq he).trans ?_
  unfold arithNew
  refine withVar_run' (s := ⟨m0, s.stk⟩) (stk1 := s.stk) (w := w) (mem1 := m4) ?_ rfl e7
  refine (bind_eq (readSlot (s := ⟨m0, s.stk ++ [w]⟩) hv1)).trans ?_
  refine (bind_eq hh).trans ?_
  have ec : copyV v ⟨m0, s.stk ++ [w]⟩ = .ok v ⟨m1, s.stk ++ [w]⟩ := by
    unfold copyV
    exact (bind_eq e1).trans rfl
  refine (bind_eq ec).trans ?_
  refine withVar_run' (s := ⟨m1, s.stk ++ [w]⟩) (stk1 := s.stk ++ [w]) (w := .num k (F.f k x (Env.conv j k y))) (mem1 := m4) ?_ rfl rfl
  have eb : assign (.slot (s.stk ++ [w]).length) v ⟨m1, s.stk ++ [w] ++ [.nil]⟩ = .ok () ⟨m3, s.stk ++ [w] ++ [.num k x]⟩ := by
    unfold assign
    exact (bind_eq (readTemp _ _ _)).trans e3
  refine (bind_eq eb).trans ?_
  refine (bind_eq (ea.trans e4)).trans ?_
  refine (bind_eq (readTemp _ _ _)).trans ?_
  rfl

end Libube.Mem

import Verif.Props.MemArith
import Verif.Lemmas.MemLimit

/-! # Arithmetic that cannot be done (C157, C159) -/

namespace Libube.MemProps

open Mem MemSpec

variable {α : Type}

/-! ## Numbers -/

/-- C157: `pow` of an integer or a char throws, and nothing changes. -/
theorem pow_integer_throws [Env α] (F : Bin α) (hF : F.op = .pow) {s : State α} (hr : Reach s) {n : Nat} {v : V α} (hv : s.stk[n]? = some v) {k : Kind} {x : α} (hx : NumberAt s.mem v k x)
    (hk : k = .char ∨ k = .int ∨ k = .long) {e : Exp α} {j : Kind} {y : α} (he : Operand s e j y) {d : Nat} (hd : 1 ≤ d) :
    ∃ s', run (.eval (.arithTo F d n e n)) s = .thrown (.error "Pow::scalar: Unknown type") s' ∧ s'.stk = s.stk ∧ AllSame s s' := by
  obtain ⟨own, hi⟩ := reach_inv hr
  obtain ⟨d, rfl⟩ : ∃ e, d = e + 1 := ⟨d - 1, by omega⟩
  obtain ⟨m0, w, e0, i0, k0, l0, -, -⟩ := operand_eval hi he
  obtain ⟨hd0, hs⟩ := numberAt_deno hx
  have i1 : Inv ⟨m0, s.stk ++ [w]⟩ own := Inv.push (s := ⟨m0, s.stk⟩) i0
  have hd1 : Deno m0 v (.num k x) := hd0.kept k0 (fun _ _ _ => id) fun b hb => l0 b (hi.stk_live (mem_stkPtrs hv hb))
  have ea : arith F (d + 1) v w (.slot n) ⟨m0, s.stk ++ [w]⟩ = .thrown (.error "Pow::scalar: Unknown type") ⟨m0, s.stk ++ [w]⟩ := by
    unfold arith
    refine (bind_eq (number_get (s := ⟨m0, s.stk ++ [w]⟩) hd1 hs.2).1).trans ?_
    have ht : F.op.takes k = false := by rcases hk with rfl | rfl | rfl <;> simp [ArithOp.takes, hF]
    simp only [ht, Bool.false_eq_true, if_false]
    rw [hF]
    rfl
  obtain ⟨m3, e3, k3⟩ := arithTo_thr e0 hv ea i1
  exact ⟨_, e3, rfl, all_same (Oth.trans k0 k3)⟩

/-! ## Two arrays -/

theorem withVar_stop {β : Type} {v : V α} {f : Loc → M α β} {s : State α} (h : f (.slot s.stk.length) { s with stk := s.stk ++ [v] } = .abort) : withVar v f s = .abort := by
  unfold withVar
  simp [h]

/-- What is around the operation on two arrays, up to the call of `broadcast`. -/
theorem arrays_start [Env α] (F : Bin α) {s : State α} {own : List Addr} (hi : Inv s own) {n m : Nat} {a b : Addr} {o p : Obj α} (hv : s.stk[n]? = some (.arr a)) (ho : s.mem[a]? = some (some o))
    (hw : s.stk[m]? = some (.arr b)) (hp : s.mem[b]? = some (some p)) (hk : o.kind ≠ .cdouble) (d : Nat) :
    ∃ m0 m1 m2 rc rc', eval (.name m) s = .ok (.arr b) ⟨m0, s.stk⟩ ∧ Kept s.mem m0 ∧ Inv ⟨m0, s.stk ++ [.arr b]⟩ own ∧
      mathType (.arr a) ⟨m0, s.stk ++ [.arr b]⟩ = .ok none ⟨m0, s.stk ++ [.arr b]⟩ ∧
      attachV (.arr a) ⟨m0, s.stk ++ [.arr b]⟩ = .ok () ⟨m1, s.stk ++ [.arr b]⟩ ∧ attachV (.arr b) ⟨m1, s.stk ++ [.arr b] ++ [.arr a]⟩ = .ok () ⟨m2, s.stk ++ [.arr b] ++ [.arr a]⟩ ∧
      Kept m0 m2 ∧ Inv ⟨m2, s.stk ++ [.arr b] ++ [.arr a] ++ [.arr b]⟩ own ∧ m2[a]? = some (some { o with rc := rc }) ∧ m2[b]? = some (some { p with rc := rc' }) := by
  obtain ⟨m0, e0, i0, k0, l0⟩ := attach_tot hi (v := .arr b) (fun c hc => hi.stk_live (mem_stkPtrs hw hc))
  have he : eval (.name m) s = .ok (.arr b) ⟨m0, s.stk⟩ := by
    show (readLoc (.slot m) >>= fun v => copyV v) s = _
    rw [bind_eq (readSlot hw)]
    unfold copyV
    exact (bind_eq e0).trans rfl
  have i1 : Inv ⟨m0, s.stk ++ [.arr b]⟩ own := Inv.push (s := ⟨m0, s.stk⟩) i0
  have hv1 : (s.stk ++ [.arr b])[n]? = some (.arr a) := by rw [List.getElem?_append_left (List.getElem?_eq_some_iff.1 hv).1]; exact hv
  have hw1 : (s.stk ++ [.arr b])[m]? = some (.arr b) := by rw [List.getElem?_append_left (List.getElem?_eq_some_iff.1 hw).1]; exact hw
  have h0 : Is m0 a o.kind o.size o.cells := Is.kept ⟨o.rc, ho⟩ k0 id (l0 a ⟨_, ho⟩)
  have h0' : Is m0 b p.kind p.size p.cells := Is.kept ⟨p.rc, hp⟩ k0 id (l0 b ⟨_, hp⟩)
  obtain ⟨m1, e1, i2, k1, l1⟩ := attach_tot i1 (v := .arr a) (fun c hc => i1.stk_live (mem_stkPtrs hv1 hc))
  have i2 : Inv ⟨m1, s.stk ++ [.arr b] ++ [.arr a]⟩ own := Inv.push (s := ⟨m1, s.stk ++ [.arr b]⟩) i2
  obtain ⟨m2, e2, i3, k2, l2⟩ := attach_tot i2 (v := .arr b) (fun c hc => i2.stk_live (up_stk _ (mem_stkPtrs hw1 hc)))
  have i3 : Inv ⟨m2, s.stk ++ [.arr b] ++ [.arr a] ++ [.arr b]⟩ own := Inv.push (s := ⟨m2, s.stk ++ [.arr b] ++ [.arr a]⟩) i3
  have k12 := Oth.trans k1 k2
  obtain ⟨rc, h2⟩ := h0.kept k12 id (l2 a (l1 a h0.live))
  obtain ⟨rc', h2'⟩ := h0'.kept k12 id (l2 b (l1 b h0'.live))
  exact ⟨m0, m1, m2, rc, rc', he, k0, i1, mathType_arr (s := ⟨m0, s.stk ++ [.arr b]⟩) (.self id) h0 hk, e1, e2, k12, i3, h2, h2'⟩

/-- The operation on two arrays throws if `broadcast` does. -/
theorem arrays_thr [Env α] (F : Bin α) {s : State α} {own : List Addr} (hi : Inv s own) {n m : Nat} {a b : Addr} {o p : Obj α} (hv : s.stk[n]? = some (.arr a)) (ho : s.mem[a]? = some (some o))
    (hw : s.stk[m]? = some (.arr b)) (hp : s.mem[b]? = some (some p)) (hk : o.kind ≠ .cdouble) {d : Nat} {ex : Exn}
    (hb : ∀ (m2 : List (Option (Obj α))) (rc rc' : Nat), Inv ⟨m2, s.stk ++ [.arr b] ++ [.arr a] ++ [.arr b]⟩ own → m2[a]? = some (some { o with rc := rc }) → m2[b]? = some (some { p with rc := rc' }) →
      ∃ m3, arithArr F (fun t lr => arith F d t (.arr b) lr) (.arr a) (.arr b) (.slot (s.stk.length + 1)) (.slot (s.stk.length + 2)) (.slot n) ⟨m2, s.stk ++ [.arr b] ++ [.arr a] ++ [.arr b]⟩ =
        .thrown ex ⟨m3, s.stk ++ [.arr b] ++ [.arr a] ++ [.arr b]⟩ ∧ Inv ⟨m3, s.stk ++ [.arr b] ++ [.arr a] ++ [.arr b]⟩ own ∧ Kept m2 m3) :
    ∃ s', run (.eval (.arithTo F (d + 1) n (.name m) n)) s = .thrown ex s' ∧ s'.stk = s.stk ∧ AllSame s s' := by
  obtain ⟨m0, m1, m2, rc, rc', he, k0, i1, em, e1, e2, k12, i3, h2, h2'⟩ := arrays_start F hi hv ho hw hp hk d
  obtain ⟨m3, e3, i4, k3⟩ := hb m2 rc rc' i3 h2 h2'
  obtain ⟨m4, e4, i5, k4⟩ := detach_tot (v := .arr b) (own := own) (s := ⟨m3, s.stk ++ [.arr b] ++ [.arr a]⟩) (Inv.pop i4)
  obtain ⟨m5, e5, i6, k5⟩ := detach_tot (v := .arr a) (own := own) (s := ⟨m4, s.stk ++ [.arr b]⟩) (Inv.pop i5)
  have ea : arith F (d + 1) (.arr a) (.arr b) (.slot n) ⟨m0, s.stk ++ [.arr b]⟩ = .thrown ex ⟨m5, s.stk ++ [.arr b]⟩ := by
    unfold arith
    refine (bind_eq em).trans ?_
    refine (bind_eq e1).trans ?_
    refine withVar_thr (s := ⟨m1, s.stk ++ [.arr b]⟩) (w := .arr a) (mem1 := m4) ?_ rfl e5
    refine (bind_eq e2).trans ?_
    refine withVar_thr (s := ⟨m2, s.stk ++ [.arr b] ++ [.arr a]⟩) (w := .arr b) (mem1 := m3) ?_ rfl e4
    simpa using e3
  obtain ⟨m6, e6, k6⟩ := arithTo_thr he hv ea i6
  exact ⟨_, e6, rfl, all_same (((((Oth.trans k0 k12).trans k3).trans k4).trans k5).trans k6)⟩

/-- C159: arrays of different types cannot be combined: an exception, and nothing changes.  A second array with one element counts as a number. -/
theorem types_throws [Env α] (F : Bin α) {s : State α} (hr : Reach s) {n m : Nat} {k j : Kind} {xs ys : List α} (hx : Contents s n k xs) (hy : Contents s m j ys) (hkj : k ≠ j) (hk : k ≠ .cdouble)
    (h1 : ys.length ≠ 1) {d : Nat} (hd : 1 ≤ d) :
    ∃ s', run (.eval (.arithTo F d n (.name m) n)) s = .thrown (.error "var::broadcast: types must match (for now)") s' ∧ s'.stk = s.stk ∧ AllSame s s' := by
  obtain ⟨own, hi⟩ := reach_inv hr
  obtain ⟨d, rfl⟩ : ∃ e, d = e + 1 := ⟨d - 1, by omega⟩
  obtain ⟨a, o, hv, ho, rfl, hsz, hel⟩ := hx
  obtain ⟨b, p, hw, hp, rfl, hps, hpe⟩ := hy
  refine arrays_thr F hi hv ho hw hp hk fun m2 rc rc' i2 h2 h2' => ⟨m2, ?_, i2, Oth.refl _ _⟩
  obtain ⟨stk, hst⟩ : ∃ l, l = s.stk ++ [.arr b] ++ [.arr a] ++ [.arr b] := ⟨_, rfl⟩
  rw [← hst]
  unfold arithArr
  refine (bind_eq (sizeV_deno (s := ⟨m2, stk⟩) (v := .arr b) (.self id) ⟨rc', h2'⟩)).trans ?_
  rw [if_neg (by omega)]
  refine (bind_eq (atypeV_deno (s := ⟨m2, stk⟩) (v := .arr a) (.self id) h2)).trans ?_
  refine (bind_eq (atypeV_deno (s := ⟨m2, stk⟩) (v := .arr b) (.self id) h2')).trans ?_
  rw [if_pos hkj]
  rfl

/-- What `vector` is called with. -/
theorem vector_start [Env α] (F : Bin α) (sc : V α → Loc → M α Unit) {m2 : List (Option (Obj α))} {stk : List (V α)} {a b : Addr} {o p : Obj α} {rc rc' : Nat}
    (h2 : m2[a]? = some (some { o with rc := rc })) (h2' : m2[b]? = some (some { p with rc := rc' })) (hk : p.kind = o.kind) (h1 : p.size ≠ 1) (hn : o.size ≠ 0) (lv lw lo : Loc) :
    arithArr F sc (.arr a) (.arr b) lv lw lo ⟨m2, stk⟩ = vectorArr F o.kind (.arr a) (.arr b) lv lw lo ⟨m2, stk⟩ := by
  unfold arithArr
  refine (bind_eq (sizeV_deno (s := ⟨m2, stk⟩) (v := .arr b) (.self id) ⟨rc', h2'⟩)).trans ?_
  rw [if_neg h1]
  refine (bind_eq (atypeV_deno (s := ⟨m2, stk⟩) (v := .arr a) (.self id) h2)).trans ?_
  refine (bind_eq (atypeV_deno (s := ⟨m2, stk⟩) (v := .arr b) (.self id) h2')).trans ?_
  simp only [hk, ne_eq, not_true_eq_false, if_false]
  refine (bind_eq (sizeV_deno (s := ⟨m2, stk⟩) (v := .arr a) (.self id) ⟨rc, h2⟩)).trans ?_
  rw [if_neg hn]

/-- C159: adding, subtracting or multiplying two arrays of a type that the functor has no case for throws, and nothing changes. -/
theorem vector_type_throws [Env α] (F : Bin α) (hF : F.op = .add ∨ F.op = .sub ∨ F.op = .mul) {s : State α} (hr : Reach s) {n m : Nat} {k : Kind} {xs ys : List α} (hx : Contents s n k xs)
    (hy : Contents s m k ys) (hk : ¬ VectorType F.op k) (hc : k ≠ .cdouble) (h1 : ys.length ≠ 1) (hne : xs ≠ []) {d : Nat} (hd : 1 ≤ d) :
    ∃ s', run (.eval (.arithTo F d n (.name m) n)) s = .thrown (.error (F.op.name ++ "::vector: Unknown type")) s' ∧ s'.stk = s.stk ∧ AllSame s s' := by
  obtain ⟨own, hi⟩ := reach_inv hr
  obtain ⟨d, rfl⟩ : ∃ e, d = e + 1 := ⟨d - 1, by omega⟩
  obtain ⟨a, o, hv, ho, rfl, hsz, hel⟩ := hx
  obtain ⟨b, p, hw, hp, hpk, hps, hpe⟩ := hy
  refine arrays_thr F hi hv ho hw hp hc fun m2 rc rc' i2 h2 h2' => ⟨m2, ?_, i2, Oth.refl _ _⟩
  have hv2 : (s.stk ++ [.arr b] ++ [.arr a] ++ [.arr b])[n]? = some (.arr a) := by
    rw [List.append_assoc, List.append_assoc]
    exact get_appendL hv _
  obtain ⟨stk, hst⟩ : ∃ l, l = s.stk ++ [.arr b] ++ [.arr a] ++ [.arr b] := ⟨_, rfl⟩
  rw [← hst] at hv2 ⊢
  have hxl : xs.length ≠ 0 := by simpa using hne
  rw [vector_start F _ h2 h2' hpk (by omega) (by omega)]
  unfold vectorArr
  rw [if_neg (by rcases hF with h | h | h <;> simp [h])]
  have es : isSame false (.arr a) (.slot n) ⟨m2, stk⟩ = .ok true ⟨m2, stk⟩ := by
    unfold isSame
    simp only [Bool.false_eq_true, if_false]
    refine (bind_eq (readSlot (s := ⟨m2, stk⟩) hv2)).trans ?_
    simp [heapOf, derefV, bind_run, M.bind, pure_run]
  refine (bind_eq es).trans ?_
  rw [if_neg (by simp)]
  refine (bind_eq (sizeV_deno (s := ⟨m2, stk⟩) (v := .arr b) (.self id) ⟨rc', h2'⟩)).trans ?_
  have hkv : F.op.vectorTypes o.kind = false := by
    unfold VectorType at hk
    rcases hF with h | h | h <;> rw [h] at hk ⊢ <;> cases hkk : o.kind <;> simp_all [ArithOp.vectorTypes]
  rw [if_neg (by simp [hkv])]
  rfl

/-- A reference to the first element. -/
theorem first_elem [Env α] {m2 : List (Option (Obj α))} {stk : List (V α)} {own : List Addr} (hi : Inv ⟨m2, stk⟩ own) {x : Nat} {a : Addr} {o : Obj α} (hx : stk[x]? = some (.arr a))
    (h : m2[a]? = some (some o)) (hn : o.size ≠ 0) :
    ∃ m3, Mem.index (.slot x) 0 ⟨m2, stk⟩ = .ok (.ref a 0) ⟨m3, stk⟩ ∧ Inv ⟨m3, stk ++ [.ref a 0]⟩ own ∧ Kept m2 m3 ∧ ∀ (b : Addr) (p : Obj α), m2[b]? = some (some p) → ∃ rc, m3[b]? = some (some { p with rc := rc }) := by
  have e := index_in (i := 0) (s := ⟨m2, stk⟩) hx h (by omega)
  have i3 := (index_keep (lk := false) (α := α) (.slot x) 0).inv (own := own) (by simpa using hi) e
  refine ⟨_, e, Inv.push (s := ⟨_, stk⟩) (v := .ref a 0) i3, ⟨by simp [upd], fun c p hc _ hp => ?_⟩, fun b p hp => ?_⟩
  · by_cases hca : c = a
    · subst hca
      have hp' := upd_get (s := ⟨m2, stk⟩) h { o with rc := o.rc + 1 }
      rw [show (upd ⟨m2, stk⟩ c { o with rc := o.rc + 1 }).mem = m2.set c (some { o with rc := o.rc + 1 }) from rfl] at hp'
      rw [hp'] at hp
      cases hp
      exact ⟨o, h, rfl, rfl, rfl⟩
    · rw [List.getElem?_set_ne (fun h => hca h.symm)] at hp
      exact ⟨p, hp, rfl, rfl, rfl⟩
  · by_cases hca : b = a
    · subst hca
      rw [h] at hp
      cases hp
      exact ⟨_, upd_get (s := ⟨m2, stk⟩) h _⟩
    · exact ⟨p.rc, by simp only [upd]; rw [List.getElem?_set_ne (fun h => hca h.symm)]; exact hp⟩

/-- C159: dividing an array by another, or raising it to another, throws, and nothing changes.  Missing: empty arrays (`div_empty_grows`, `empty_left_undefined`). -/
theorem vector_div_throws_partial [Env α] (F : Bin α) (hF : F.op = .div ∨ F.op = .pow) {s : State α} (hr : Reach s) {n m : Nat} {k : Kind} {xs ys : List α} (hx : Contents s n k xs)
    (hy : Contents s m k ys) (hc : k ≠ .cdouble) (h1 : ys.length ≠ 1) (hne : xs ≠ []) (hne' : ys ≠ []) {d : Nat} (hd : 1 ≤ d) :
    ∃ s', run (.eval (.arithTo F d n (.name m) n)) s = .thrown (.error "BinaryFunctor: not a vector operation") s' ∧ s'.stk = s.stk ∧ AllSame s s' := by
  obtain ⟨own, hi⟩ := reach_inv hr
  obtain ⟨d, rfl⟩ : ∃ e, d = e + 1 := ⟨d - 1, by omega⟩
  obtain ⟨a, o, hv, ho, rfl, hsz, hel⟩ := hx
  obtain ⟨b, p, hw, hp, hpk, hps, hpe⟩ := hy
  have hxl : xs.length ≠ 0 := by simpa using hne
  have hyl : ys.length ≠ 0 := by simpa using hne'
  refine arrays_thr F hi hv ho hw hp hc fun m2 rc rc' i2 h2 h2' => ?_
  have hv2 : (s.stk ++ [.arr b] ++ [.arr a] ++ [.arr b])[n]? = some (.arr a) := by
    rw [List.append_assoc, List.append_assoc]
    exact get_appendL hv _
  have hlv : (s.stk ++ [.arr b] ++ [.arr a] ++ [.arr b])[s.stk.length + 1]? = some (.arr a) := by simp
  have hlw : (s.stk ++ [.arr b] ++ [.arr a] ++ [.arr b])[s.stk.length + 2]? = some (.arr b) := by simp
  obtain ⟨stk, hst⟩ : ∃ l, l = s.stk ++ [.arr b] ++ [.arr a] ++ [.arr b] := ⟨_, rfl⟩
  rw [← hst] at hv2 hlv hlw i2 ⊢
  rw [vector_start F _ h2 h2' hpk (by omega) (by omega)]
  obtain ⟨m3, e3, i3, k3, f3⟩ := first_elem i2 hlv h2 (by simp; omega)
  obtain ⟨rb, h3'⟩ := f3 b _ h2'
  obtain ⟨m4, e4, i4, k4, f4⟩ := first_elem i3 (get_appendL hlw _) h3' (by simp; omega)
  obtain ⟨ra, h3⟩ := f3 a _ h2
  obtain ⟨ra', h4⟩ := f4 a _ h3
  obtain ⟨m5, e5, i5, k5, -⟩ := first_elem i4 (get_appendL (get_appendL hv2 _) _) h4 (by simp; omega)
  obtain ⟨m6, e6, i6, k6⟩ := detach_tot (v := .ref a 0) (own := own) (s := ⟨m5, stk ++ [.ref a 0] ++ [.ref b 0]⟩) (Inv.pop i5)
  obtain ⟨m7, e7, i7, k7⟩ := detach_tot (v := .ref b 0) (own := own) (s := ⟨m6, stk ++ [.ref a 0]⟩) (Inv.pop i6)
  obtain ⟨m8, e8, i8, k8⟩ := detach_tot (v := .ref a 0) (own := own) (s := ⟨m7, stk⟩) (Inv.pop i7)
  refine ⟨m8, ?_, i8, ((((Oth.trans k3 k4).trans k5).trans k6).trans k7).trans k8⟩
  unfold vectorArr
  rw [if_pos hF]
  refine (bind_eq e3).trans ?_
  refine withVar_thr (s := ⟨m3, stk⟩) (w := .ref a 0) (mem1 := m7) ?_ rfl e8
  refine (bind_eq e4).trans ?_
  refine withVar_thr (s := ⟨m4, stk ++ [.ref a 0]⟩) (w := .ref b 0) (mem1 := m6) ?_ rfl e7
  refine (bind_eq e5).trans ?_
  refine withVar_thr (s := ⟨m5, stk ++ [.ref a 0] ++ [.ref b 0]⟩) (w := .ref a 0) (mem1 := m5) ?_ rfl e6
  rfl

/-- C159 does not hold for an empty array on the left: the number of operations is 0 / 0. -/
theorem empty_left_undefined [Env α] (F : Bin α) {s : State α} (hr : Reach s) {n m : Nat} {k : Kind} {ys : List α} (hx : Contents s n k []) (hy : Contents s m k ys) (hc : k ≠ .cdouble)
    (h1 : ys.length ≠ 1) {d : Nat} (hd : 1 ≤ d) : run (.eval (.arithTo F d n (.name m) n)) s = .ub .divZero := by
  obtain ⟨own, hi⟩ := reach_inv hr
  obtain ⟨d, rfl⟩ : ∃ e, d = e + 1 := ⟨d - 1, by omega⟩
  obtain ⟨a, o, hv, ho, rfl, hsz, hel⟩ := hx
  obtain ⟨b, p, hw, hp, hpk, hps, hpe⟩ := hy
  obtain ⟨m0, m1, m2, rc, rc', he, k0, i1, em, e1, e2, k12, i3, h2, h2'⟩ := arrays_start F hi hv ho hw hp hc d
  have hv1 : (s.stk ++ [.arr b])[n]? = some (.arr a) := get_appendL hv _
  have ea : arith F (d + 1) (.arr a) (.arr b) (.slot n) ⟨m0, s.stk ++ [.arr b]⟩ = .ub .divZero := by
    unfold arith
    refine (bind_eq em).trans ?_
    refine (bind_eq e1).trans ?_
    refine withVar_ub (s := ⟨m1, s.stk ++ [.arr b]⟩) ?_
    refine (bind_eq e2).trans ?_
    refine withVar_ub (s := ⟨m2, s.stk ++ [.arr b] ++ [.arr a]⟩) ?_
    obtain ⟨stk, hst⟩ : ∃ l, l = s.stk ++ [.arr b] ++ [.arr a] ++ [.arr b] := ⟨_, rfl⟩
    rw [← hst]
    unfold arithArr
    refine (bind_eq (sizeV_deno (s := ⟨m2, stk⟩) (v := .arr b) (.self id) ⟨rc', h2'⟩)).trans ?_
    rw [if_neg (by omega)]
    refine (bind_eq (atypeV_deno (s := ⟨m2, stk⟩) (v := .arr a) (.self id) h2)).trans ?_
    refine (bind_eq (atypeV_deno (s := ⟨m2, stk⟩) (v := .arr b) (.self id) h2')).trans ?_
    simp only [hpk, ne_eq, not_true_eq_false, if_false]
    refine (bind_eq (sizeV_deno (s := ⟨m2, stk⟩) (v := .arr a) (.self id) ⟨rc, h2⟩)).trans ?_
    rw [if_pos (by simpa using hsz)]
    rfl
  have e4 : eval (.arithTo F (d + 1) n (.name m) n) s = .ub .divZero := by
    refine (bind_eq he).trans ?_
    unfold arithTo
    refine withVar_ub (s := ⟨m0, s.stk⟩) ?_
    refine (bind_eq (readSlot (s := ⟨m0, s.stk ++ [.arr b]⟩) hv1)).trans ?_
    exact bind_ub ea
  exact bind_ub e4

/-! ## New arrays -/

/-- C158: `x * y` for two arrays of floats or doubles of the same size is a new array with the products; nothing else changes. -/
theorem product_new [Env α] (F : Bin α) (hF : F.op = .mul) {s : State α} (hr : Reach s) {n m : Nat} {k : Kind} {xs ys : List α} (hx : Contents s n k xs) (hy : Contents s m k ys)
    (hk : k = .float ∨ k = .double) (hl : ys.length = xs.length) (h1 : ys.length ≠ 1) (hne : xs ≠ []) (hf : Fits xs)
    (hok : ∀ (i : Nat) (x y : α), xs[i]? = some x → ys[i]? = some y → F.ok k x y = true) {d : Nat} (hd : 1 ≤ d) :
    ∃ s' o, eval (.arith F d n (.name m)) s = .ok (.arr s.mem.length) s' ∧ s'.stk = s.stk ∧ s'.mem[s.mem.length]? = some (some o) ∧ Elements o k (List.zipWith (F.f k) xs ys) ∧ AllSame s s' := by
  have hf : xs.length + 2 ≤ 2 ^ 30 := hf
  obtain ⟨own, hi⟩ := reach_inv hr
  obtain ⟨d, rfl⟩ : ∃ e, d = e + 1 := ⟨d - 1, by omega⟩
  obtain ⟨a, o, hv, ho, rfl, hsz, hel⟩ := hx
  obtain ⟨b, p, hw, hp, hpk, hps, hpe⟩ := hy
  have hkc : o.kind ≠ .cdouble := by rcases hk with h | h <;> rw [h] <;> decide
  obtain ⟨m0, e0, i0, k0, l0⟩ := attach_tot hi (v := .arr b) (fun c hc => hi.stk_live (mem_stkPtrs hw hc))
  have he : eval (.name m) s = .ok (.arr b) ⟨m0, s.stk⟩ := by
    show (readLoc (.slot m) >>= fun v => copyV v) s = _
    rw [bind_eq (readSlot hw)]
    unfold copyV
    exact (bind_eq e0).trans rfl
  have hml : m0.length = s.mem.length := by
    have h := attach_run (v := .arr b) rfl hp
    rw [e0] at h
    injection h with _ h
    rw [show m0 = (upd s b { p with rc := p.rc + 1 }).mem from congrArg State.mem h]
    simp [upd]
  obtain ⟨m6, cells', e6, ⟨rc, q6⟩, r6, k6⟩ := arithNew_wrap (F := F) (d := d + 1) (n := n) hi (m0 := m0) (w := .arr b) he i0 k0 l0 hv
    ⟨o.rc, ho⟩ (by rcases hk with h | h <;> simp [h, Number]) (by omega)
    (R := fun cells => ∀ (i : Nat) (x y : α), xs[i]? = some x → ys[i]? = some y → cells[i]? = some (.raw (some (F.f o.kind x y))))
    (fun m3 cells i3 k3 hob hcl => by
      have hv3 : (s.stk ++ [(.arr b : V α)] ++ [.arr m0.length])[n]? = some (.arr a) := get_appendL (get_appendL hv _) _
      have hw3 : (s.stk ++ [(.arr b : V α)] ++ [.arr m0.length])[m]? = some (.arr b) := get_appendL (get_appendL hw _) _
      have hl3 : (s.stk ++ [(.arr b : V α)] ++ [.arr m0.length])[s.stk.length + 1]? = some (.arr m0.length) := by simp
      have k03 := Oth.trans k0 k3
      have g3 : Is m3 a o.kind o.size o.cells := Is.kept (m1 := s.mem) ⟨o.rc, ho⟩ k03 id (i3.stk_live (mem_stkPtrs hv3 (by simp [V.ptr])))
      have g3' : Is m3 b p.kind p.size p.cells := Is.kept (m1 := s.mem) ⟨p.rc, hp⟩ k03 id (i3.stk_live (mem_stkPtrs hw3 (by simp [V.ptr])))
      obtain ⟨m4, e4, i4, ⟨cells', q1, q2⟩, k4⟩ := arith_wrap (F := F) (d := d) (s := ⟨m3, s.stk ++ [.arr b] ++ [.arr m0.length]⟩) (lo := .slot (s.stk.length + 1)) i3 (v := .arr a)
        (w := .arr b) (.self id) (fun b hb => mem_stkPtrs hv3 hb) (fun b hb => mem_stkPtrs hw3 hb) g3 hkc
        (Q := fun m => (∃ cells : List (Cell α), Is m m0.length o.kind o.size cells ∧
          ∀ (i : Nat) (x y : α), xs[i]? = some x → ys[i]? = some y → cells[i]? = some (.raw (some (F.f o.kind x y)))) ∧ Oth (· = m0.length) m3 m)
        (fun {m m'} hq hk hi => by
          obtain ⟨⟨cells, g1, g2⟩, g3⟩ := hq
          exact ⟨⟨cells, g1.kept hk id (hi.stk_live (mem_stkPtrs hl3 (by simp [V.ptr]))), g2⟩, g3.trans hk.oth⟩)
        (fun m1 k1 i4 => by
          obtain ⟨stk4, hst⟩ : ∃ l, l = s.stk ++ [(.arr b : V α)] ++ [.arr m0.length] ++ [.arr a, .arr b] := ⟨_, rfl⟩
          have hv4 : stk4[n]? = some (.arr a) := by rw [hst]; exact get_appendL hv3 _
          have hw4 : stk4[m]? = some (.arr b) := by rw [hst]; exact get_appendL hw3 _
          have hl4 : stk4[s.stk.length + 1]? = some (.arr m0.length) := by rw [hst]; exact get_appendL hl3 _
          rw [← hst] at i4
          obtain ⟨rc, h1a⟩ := g3.kept k1 id (i4.stk_live (mem_stkPtrs hv4 (by simp [V.ptr])))
          obtain ⟨rc', h1b⟩ := g3'.kept k1 id (i4.stk_live (mem_stkPtrs hw4 (by simp [V.ptr])))
          obtain ⟨rc'', h2⟩ := hob.kept k1 id (i4.stk_live (mem_stkPtrs hl4 (by simp [V.ptr])))
          obtain ⟨cells', e4, g1, g2⟩ := vecLoop_run F (m := s.stk.length + 1) (a := a) (b := b) p.size 0 (s := ⟨m1, stk4⟩) hl4 h2 (fun l _ hl' => by
            have hly : l < ys.length := by omega
            have hlx : l < xs.length := by omega
            obtain ⟨u, hu⟩ := hcl l (by omega)
            exact ⟨xs[l], ys[l], u, ⟨_, h1a, hel l _ (List.getElem?_eq_getElem hlx)⟩, ⟨_, h1b, hpe l _ (List.getElem?_eq_getElem hly)⟩, hu,
              hok l _ _ (List.getElem?_eq_getElem hlx) (List.getElem?_eq_getElem hly)⟩)
          have i5 := (vecLoop_keep (lk := false) F o.kind (.arr a) (.arr b) (.slot (s.stk.length + 1)) p.size 0).inv (own := own) (by simpa using i4) e4
          simp only [List.nil_append] at i5
          simp only [← hst]
          refine ⟨_, ?_, i5, ⟨cells', ⟨rc'', upd_get (s := ⟨m1, stk4⟩) h2 _⟩,
            fun i x y hx hy => g1 i x y (Nat.zero_le _) (by have := (List.getElem?_eq_some_iff.1 hy).1; omega) ⟨_, h1a, hel i x hx⟩ ⟨_, h1b, hpe i y hy⟩⟩,
            (Kept.oth k1).trans ⟨by simp [upd], fun c p hc _ hp => ?_⟩⟩
          · have hxl : xs.length ≠ 0 := by simpa using hne
            rw [vector_start F _ h1a h1b hpk (by omega) (by omega)]
            unfold vectorArr
            rw [if_neg (by simp [hF])]
            have es : ∃ r, isSame false (.arr a) (.slot (s.stk.length + 1)) ⟨m1, stk4⟩ = .ok r ⟨m1, stk4⟩ := by
              unfold isSame
              simp only [Bool.false_eq_true, if_false]
              exact ⟨decide (a = m0.length), (bind_eq (readSlot (s := ⟨m1, stk4⟩) hl4)).trans rfl⟩
            obtain ⟨r, es⟩ := es
            refine (bind_eq es).trans ?_
            rw [if_neg (by simp [hF])]
            refine (bind_eq (sizeV_deno (s := ⟨m1, stk4⟩) (v := .arr b) (.self id) ⟨rc', h1b⟩)).trans ?_
            rw [if_pos (by rcases hk with h | h <;> simp [h, ArithOp.vectorTypes])]
            exact e4
          · rw [List.getElem?_set_ne (fun h => hc h.symm)] at hp
            exact ⟨p, hp, rfl, rfl, rfl⟩)
      exact ⟨m4, cells', e4, i4, q1, q2, k4⟩)
  rw [hml] at e6 q6
  refine ⟨_, _, e6, rfl, q6, ⟨rfl, by simp; omega, fun i u hu => ?_⟩, all_same k6⟩
  rw [List.getElem?_zipWith_eq_some] at hu
  obtain ⟨x, y, hx, hy, rfl⟩ := hu
  exact r6 i x y hx hy

/-- Making the array for the result, if the program stops afterwards. -/
theorem arithNew_stop [Env α] {F : Bin α} {d n : Nat} {e : Exp α} {s : State α} {own : List Addr} {a : Addr} {w : V α} {m0 : List (Option (Obj α))}
    (he : eval e s = .ok w ⟨m0, s.stk⟩) (i0 : Inv ⟨m0, s.stk⟩ (w.ptr.toList ++ own)) (k0 : Kept s.mem m0) (l0 : ∀ b, Live s.mem b → Live m0 b) (hv : s.stk[n]? = some (.arr a))
    {k : Kind} {sz : Nat} {cells0 : List (Cell α)} (h : Is s.mem a k sz cells0) (hk : Number k) (hsz : sz + 2 ≤ 2 ^ 30)
    (hb : ∀ m3, Inv ⟨m3, s.stk ++ [w] ++ [.arr m0.length]⟩ own → Kept m0 m3 → arith F d (.arr a) w (.slot (s.stk.length + 1)) ⟨m3, s.stk ++ [w] ++ [.arr m0.length]⟩ = .abort) :
    eval (.arith F d n e) s = .abort := by
  have i1 : Inv ⟨m0, s.stk ++ [w]⟩ own := Inv.push (s := ⟨m0, s.stk⟩) i0
  have hv1 : (s.stk ++ [w])[n]? = some (.arr a) := get_appendL hv _
  obtain ⟨rc, g⟩ := h.kept k0 id (l0 a h.live)
  obtain ⟨cells, c1, c2, c3, -, -⟩ := resizeObj_run (o := (⟨k, 0, 1, []⟩ : Obj α)) (m := sz) hk (by simp) (by omega)
  have e1 : newHeap sz (some k) ⟨m0, s.stk ++ [w]⟩ = .ok m0.length ⟨m0 ++ [some ⟨k, sz, 1, cells⟩], s.stk ++ [w]⟩ := by
    unfold newHeap
    simp only [Option.getD_some, c1]
    rfl
  obtain ⟨i2, -, -⟩ := newHeap_ok e1 i1
  have k1 : Kept m0 (m0 ++ [some ⟨k, sz, 1, cells⟩]) := ⟨by simp, fun b o' _ hb ho => by
    rw [List.getElem?_append_left hb] at ho
    exact ⟨o', ho, rfl, rfl, rfl⟩⟩
  have i3 : Inv ⟨m0 ++ [some ⟨k, sz, 1, cells⟩], s.stk ++ [w] ++ [.nil]⟩ (m0.length :: own) :=
    Inv.push (s := ⟨m0 ++ [some ⟨k, sz, 1, cells⟩], s.stk ++ [w]⟩) (v := .nil) (by simpa [V.ptr] using i2)
  have hs2 : (s.stk ++ [w] ++ [(.nil : V α)])[(s.stk ++ [w]).length]? = some .nil := by simp
  obtain ⟨m3, e3, i4, k3⟩ := assignSlot_tot (v := .arr m0.length) (own := own) i3 hs2 id (.self id)
  simp only [set_last] at e3 i4
  refine (bind_eq he).trans ?_
  unfold arithNew
  refine withVar_stop (s := ⟨m0, s.stk⟩) ?_
  refine (bind_eq (readSlot (s := ⟨m0, s.stk ++ [w]⟩) hv1)).trans ?_
  have hh : heapOf (.arr a) ⟨m0, s.stk ++ [w]⟩ = .ok (some a) ⟨m0, s.stk ++ [w]⟩ := rfl
  refine (bind_eq hh).trans ?_
  simp only
  refine (bind_eq (obj_eq g)).trans ?_
  refine (bind_eq e1).trans ?_
  refine (bind_eq (show (pure (V.arr m0.length) : M α (V α)) ⟨m0 ++ [some ⟨k, sz, 1, cells⟩], s.stk ++ [w]⟩ = .ok _ _ from rfl)).trans ?_
  refine withVar_stop (s := ⟨m0 ++ [some ⟨k, sz, 1, cells⟩], s.stk ++ [w]⟩) ?_
  have ea : assign (.slot (s.stk ++ [w]).length) (.arr m0.length) ⟨m0 ++ [some ⟨k, sz, 1, cells⟩], s.stk ++ [w] ++ [.nil]⟩ = .ok () ⟨m3, s.stk ++ [w] ++ [.arr m0.length]⟩ := by
    unfold assign
    exact (bind_eq (readTemp _ _ _)).trans e3
  refine (bind_eq ea).trans ?_
  rw [show (s.stk ++ [w]).length = s.stk.length + 1 by simp]
  exact bind_ab (hb m3 i4 (Oth.trans k1 k3))

/-- C159 does not hold for the sum or difference of two arrays as a new array: the program aborts, whatever their sizes. -/
theorem sum_new_aborts [Env α] (F : Bin α) (hF : F.op = .add ∨ F.op = .sub) {s : State α} (hr : Reach s) {n m : Nat} {k : Kind} {xs ys : List α} (hx : Contents s n k xs) (hy : Contents s m k ys)
    (hk : Scalar k) (h1 : ys.length ≠ 1) (hne : xs ≠ []) (hf : Fits xs) {d : Nat} (hd : 1 ≤ d) : eval (.arith F d n (.name m)) s = .abort := by
  have hf : xs.length + 2 ≤ 2 ^ 30 := hf
  obtain ⟨own, hi⟩ := reach_inv hr
  obtain ⟨d, rfl⟩ : ∃ e, d = e + 1 := ⟨d - 1, by omega⟩
  obtain ⟨a, o, hv, ho, rfl, hsz, hel⟩ := hx
  obtain ⟨b, p, hw, hp, hpk, hps, hpe⟩ := hy
  obtain ⟨m0, e0, i0, k0, l0⟩ := attach_tot hi (v := .arr b) (fun c hc => hi.stk_live (mem_stkPtrs hw hc))
  have he : eval (.name m) s = .ok (.arr b) ⟨m0, s.stk⟩ := by
    show (readLoc (.slot m) >>= fun v => copyV v) s = _
    rw [bind_eq (readSlot hw)]
    unfold copyV
    exact (bind_eq e0).trans rfl
  have halt : a < m0.length := Nat.lt_of_lt_of_le (lt_of_alive ho) k0.1
  refine arithNew_stop he i0 k0 l0 hv ⟨o.rc, ho⟩ hk.1 (by omega) fun m3 i3 k3 => ?_
  have hv3 : (s.stk ++ [(.arr b : V α)] ++ [.arr m0.length])[n]? = some (.arr a) := get_appendL (get_appendL hv _) _
  have hw3 : (s.stk ++ [(.arr b : V α)] ++ [.arr m0.length])[m]? = some (.arr b) := get_appendL (get_appendL hw _) _
  have hl3 : (s.stk ++ [(.arr b : V α)] ++ [.arr m0.length])[s.stk.length + 1]? = some (.arr m0.length) := by simp
  have k03 := Oth.trans k0 k3
  have g3 : Is m3 a o.kind o.size o.cells := Is.kept (m1 := s.mem) ⟨o.rc, ho⟩ k03 id (i3.stk_live (mem_stkPtrs hv3 (by simp [V.ptr])))
  have g3' : Is m3 b p.kind p.size p.cells := Is.kept (m1 := s.mem) ⟨p.rc, hp⟩ k03 id (i3.stk_live (mem_stkPtrs hw3 (by simp [V.ptr])))
  obtain ⟨stk, hst⟩ : ∃ l, l = s.stk ++ [(.arr b : V α)] ++ [.arr m0.length] := ⟨_, rfl⟩
  rw [← hst] at hv3 hw3 hl3 i3 ⊢
  obtain ⟨m4, e4, i4, k4, l4⟩ := attach_tot i3 (v := .arr a) (fun c hc => i3.stk_live (mem_stkPtrs hv3 hc))
  have i4 : Inv ⟨m4, stk ++ [.arr a]⟩ own := Inv.push (s := ⟨m4, stk⟩) i4
  obtain ⟨m5, e5, i5, k5, l5⟩ := attach_tot i4 (v := .arr b) (fun c hc => i4.stk_live (up_stk _ (mem_stkPtrs hw3 hc)))
  have k45 := Oth.trans k4 k5
  obtain ⟨rc, g5⟩ := g3.kept k45 id (l5 a (l4 a g3.live))
  obtain ⟨rc', g5'⟩ := g3'.kept k45 id (l5 b (l4 b g3'.live))
  unfold arith
  refine (bind_eq (mathType_arr (s := ⟨m3, stk⟩) (.self id) g3 hk.2)).trans ?_
  refine (bind_eq e4).trans ?_
  refine withVar_stop (s := ⟨m4, stk⟩) ?_
  refine (bind_eq e5).trans ?_
  refine withVar_stop (s := ⟨m5, stk ++ [.arr a]⟩) ?_
  have hl5 : (stk ++ [.arr a] ++ [.arr b])[s.stk.length + 1]? = some (.arr m0.length) := get_appendL (get_appendL hl3 _) _
  have hxl : xs.length ≠ 0 := by simpa using hne
  simp only
  obtain ⟨stk5, hst5⟩ : ∃ l, l = stk ++ [.arr a] ++ [.arr b] := ⟨_, rfl⟩
  rw [← hst5] at hl5 ⊢
  rw [vector_start F _ g5 g5' hpk (by omega) (by omega)]
  unfold vectorArr
  rw [if_neg (by rcases hF with h | h <;> simp [h])]
  have es : isSame false (.arr a) (.slot (s.stk.length + 1)) ⟨m5, stk5⟩ = .ok false ⟨m5, stk5⟩ := by
    unfold isSame
    simp only [Bool.false_eq_true, if_false]
    refine (bind_eq (readSlot (s := ⟨m5, stk5⟩) hl5)).trans ?_
    simp [heapOf, derefV, bind_run, M.bind, pure_run, Nat.ne_of_lt halt]
  refine (bind_eq es).trans ?_
  rw [if_pos (by rcases hF with h | h <;> simp [h])]
  rfl

/-! ## Cases -/

section

attribute [local instance] intEnv

/-- Hypotheses of `pow_integer_throws`: `x.pow(2)` for an integer. -/
example : ∃ s', run (.eval (.arithTo (binF .pow fun x y => x ^ y.toNat) 1 0 (.num .float 2) 0)) (final [.decl (.num .int 3)]) = .thrown (.error "Pow::scalar: Unknown type") s' ∧
    AllSame (final [.decl (.num .int 3)]) s' := by
  obtain ⟨s', h1, -, h2⟩ := pow_integer_throws (binF .pow fun x y => x ^ y.toNat) rfl (s := final [.decl (.num .int 3)]) (reach_exec [.decl (.num .int 3)] .start (by decide +kernel)) (n := 0) (v := .num .int 3) (by decide +kernel)
    (.plain (by simp [Scalar, Number])) (.inr (.inl rfl)) (.num (j := .float) (y := 2) (by simp [Scalar, Number])) (d := 1) (le_refl _)
  exact ⟨s', h1, h2⟩

/-- Arrays of floats, doubles, integers and an empty one. -/
def progE : List (Stmt Int) := [.decl (.num .float 2), .push 0 (.num .float 3), .decl (.num .double 7), .push 1 (.num .double 11), .decl (.num .int 1), .push 2 (.num .int 4),
  .decl (.num .float 3), .array 3, .eval (.pop 3)]

theorem progE_reach : Reach (final progE) := reach_exec progE .start (by decide +kernel)

theorem progE_0 : Contents (final progE) 0 .float [2, 3] :=
  contents_of (a := 0) (o := ⟨.float, 2, 1, .raw (some 2) :: .raw (some 3) :: List.replicate 6 (.raw none)⟩) [2, 3] (by decide +kernel) (by decide +kernel) (by decide) rfl

theorem progE_1 : Contents (final progE) 1 .double [7, 11] :=
  contents_of (a := 1) (o := ⟨.double, 2, 1, .raw (some 7) :: .raw (some 11) :: List.replicate 6 (.raw none)⟩) [7, 11] (by decide +kernel) (by decide +kernel) (by decide) rfl

theorem progE_2 : Contents (final progE) 2 .int [1, 4] :=
  contents_of (a := 2) (o := ⟨.int, 2, 1, .raw (some 1) :: .raw (some 4) :: List.replicate 6 (.raw none)⟩) [1, 4] (by decide +kernel) (by decide +kernel) (by decide) rfl

theorem progE_3 : Contents (final progE) 3 .float ([] : List Int) :=
  ⟨3, ⟨.float, 0, 1, .raw (some 3) :: List.replicate 7 (.raw none)⟩, by decide +kernel, by decide +kernel, rfl, rfl, fun i x hx => by simp at hx⟩

/-- Hypotheses of `types_throws`: floats and doubles; also an empty array of floats to one of doubles. -/
example : ∃ s', run (.eval (.arithTo (binF .add (· + ·)) 1 0 (.name 1) 0)) (final progE) = .thrown (.error "var::broadcast: types must match (for now)") s' ∧ AllSame (final progE) s' := by
  obtain ⟨s', h1, -, h2⟩ := types_throws (binF .add (· + ·)) progE_reach progE_0 progE_1 (by decide) (by decide) (by decide) (d := 1) (le_refl _)
  exact ⟨s', h1, h2⟩

example : ∃ s', run (.eval (.arithTo (binF .add (· + ·)) 1 1 (.name 3) 1)) (final progE) = .thrown (.error "var::broadcast: types must match (for now)") s' ∧ AllSame (final progE) s' := by
  obtain ⟨s', h1, -, h2⟩ := types_throws (binF .add (· + ·)) progE_reach progE_1 progE_3 (by decide) (by decide) (by decide) (d := 1) (le_refl _)
  exact ⟨s', h1, h2⟩

/-- Hypotheses of `vector_type_throws`: integers, and `x -= x`. -/
example : ∃ s', run (.eval (.arithTo (binF .sub (· - ·)) 1 2 (.name 2) 2)) (final progE) = .thrown (.error "Sub::vector: Unknown type") s' ∧ AllSame (final progE) s' := by
  obtain ⟨s', h1, -, h2⟩ := vector_type_throws (binF .sub (· - ·)) (.inr (.inl rfl)) progE_reach progE_2 progE_2 (by simp [VectorType]) (by decide) (by decide) (by decide) (d := 1) (le_refl _)
  exact ⟨s', h1, h2⟩

/-- Hypotheses of `vector_div_throws_partial`: `x /= x` and `x /= y`. -/
example : ∃ s', run (.eval (.arithTo (binF .div (· / ·)) 1 0 (.name 0) 0)) (final progE) = .thrown (.error "BinaryFunctor: not a vector operation") s' ∧ AllSame (final progE) s' := by
  obtain ⟨s', h1, -, h2⟩ := vector_div_throws_partial (binF .div (· / ·)) (.inl rfl) progE_reach progE_0 progE_0 (by decide) (by decide) (by decide) (by decide) (d := 1) (le_refl _)
  exact ⟨s', h1, h2⟩

example : ∃ s', run (.eval (.arithTo (binF .div (· / ·)) 1 0 (.name 1) 0)) (final progB) = .thrown (.error "BinaryFunctor: not a vector operation") s' ∧ AllSame (final progB) s' := by
  obtain ⟨s', h1, -, h2⟩ := vector_div_throws_partial (binF .div (· / ·)) (.inl rfl) progB_reach progB_0 progB_1 (by decide) (by decide) (by decide) (by decide) (d := 1) (le_refl _)
  exact ⟨s', h1, h2⟩

/-- Hypotheses of `empty_left_undefined`. -/
example : run (.eval (.arithTo (binF .add (· + ·)) 1 3 (.name 0) 3)) (final progE) = .ub .divZero :=
  empty_left_undefined (binF .add (· + ·)) progE_reach progE_3 progE_0 (by decide) (by decide) (le_refl _)

/-- Hypotheses of `product_new`: `x * x`. -/
example : ∃ s' o, eval (.arith (binF .mul (· * ·)) 1 0 (.name 0)) (final progE) = .ok (.arr 4) s' ∧ s'.mem[4]? = some (some o) ∧ Elements o .float [4, 9] := by
  obtain ⟨s', o, h1, -, h2, h3, -⟩ := product_new (binF .mul (· * ·)) rfl progE_reach progE_0 progE_0 (.inl rfl) rfl (by decide) (by decide) (by simp [Fits]) (fun _ _ _ _ _ => rfl) (d := 1) (le_refl _)
  rw [show (final progE).mem.length = 4 by decide +kernel] at h1 h2
  exact ⟨s', o, h1, h2, h3⟩

/-- Hypotheses of `sum_new_aborts`: `x + y` for two arrays of floats. -/
example : eval (.arith (binF .add (· + ·)) 1 0 (.name 1)) (final progB) = .abort :=
  sum_new_aborts (binF .add (· + ·)) (.inl rfl) progB_reach progB_0 progB_1 (by simp [Scalar, Number]) (by decide) (by decide) (by simp [Fits]) (le_refl _)

/-! ## What does not hold -/

/-- C159 in full: if the arrays do not fit, by type or size, an exception is thrown and nothing changes; a second array with one element counts as a number. -/
def Refused : Prop := ∀ (F : Bin Int) (s : State Int) (n m : Nat) (k j : Kind) (xs ys : List Int) (d : Nat), Reach s → (∀ k x y, F.ok k x y = true) → Contents s n k xs → Contents s m j ys → 1 ≤ d →
  k ≠ .cdouble → ys.length ≠ 1 → ¬ (k = j ∧ VectorType F.op k ∧ xs.length = ys.length) → ∃ e s', run (.eval (.arithTo F d n (.name m) n)) s = .thrown e s' ∧ AllSame s s'

/-- It does not hold: with fewer elements on the right the others stay, with more the end of the array is passed, and an empty array on the left is a division by zero. -/
theorem sizes_not_checked : ¬ Refused ∧ (∃ s', run (.eval (.arithTo (binF .sub (· - ·)) 1 0 (.name 1) 0)) (final progB) = .ok () s' ∧ Contents s' 0 .float [-5, -8, 5]) ∧
    run (.eval (.arithTo (binF .sub (· - ·)) 1 1 (.name 0) 1)) (final progB) = .ub .uninit ∧ run (.eval (.arithTo (binF .add (· + ·)) 1 3 (.name 0) 3)) (final progE) = .ub .divZero := by
  have h1 : run (.eval (.arithTo (binF .sub (· - ·)) 1 1 (.name 0) 1)) (final progB) = .ub .uninit := by decide +kernel
  refine ⟨fun h => ?_, ?_, h1, empty_left_undefined (binF .add (· + ·)) progE_reach progE_3 progE_0 (by decide) (by decide) (le_refl _)⟩
  · obtain ⟨e, s', h2, -⟩ := h (binF .sub (· - ·)) (final progB) 1 0 .float .float [7, 11] [2, 3, 5] 1 progB_reach (fun _ _ _ => rfl) progB_1 progB_0 (le_refl _) (by decide) (by decide) (by simp)
    rw [h1] at h2
    cases h2
  · obtain ⟨s', a, h1, -, -, h2, -⟩ := vector_op_partial (binF .sub (· - ·)) progB_reach progB_0 progB_1 ⟨.inr (.inl rfl), .inl rfl⟩ (by decide) (by decide) (by decide) (fun _ _ _ _ _ => rfl)
      (d := 1) (le_refl _)
    exact ⟨s', h1, h2⟩

end

end Libube.MemProps

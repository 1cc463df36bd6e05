import Verif.Lemmas.MemVector
import Verif.Props.MemUnary

/-! # Arithmetic on variables, elements and nested data (C157, C158) -/

namespace Libube.MemProps

open Mem MemSpec

variable {α : Type}

/-! ## Numbers -/

/-- Putting together what is known about the array with the element. -/
theorem only_element {s : State α} {own : List Addr} {a : Addr} {i : Nat} {o : Obj α} (ho : s.mem[a]? = some (some o)) {n : Nat} (hv : s.stk[n]? = some (.ref a i)) {m0 m2 m3 : List (Option (Obj α))}
    {c : Cell α} (h2 : Is m2 a o.kind o.size (o.cells.set i c)) (hk : Oth (· = a) m0 m2) (k0 : Kept s.mem m0) (k3 : Kept m2 m3) (i3 : Inv ⟨m3, s.stk⟩ own)
    (hp : ∀ key u : V α, o.cells[i]? = some (.pair key u) → ∃ u' : V α, c = .pair key u') (hlt : i < o.cells.length) :
    OnlyElement s ⟨m3, s.stk⟩ a i ∧ ∃ o3 : Obj α, m3[a]? = some (some o3) ∧ o3.kind = o.kind ∧ o3.cells[i]? = some c := by
  obtain ⟨rc, h3⟩ := h2.kept k3 id (i3.stk_live (mem_stkPtrs hv (by simp [V.ptr])))
  refine ⟨⟨rfl, beside (((Kept.oth k0).trans (hk.mono (by simp))).trans k3.oth) (by simpa using ⟨o, ho⟩), o, _, ho, h3, rfl, rfl, fun l hl => List.getElem?_set_ne (Ne.symm hl), fun key u hu => ?_⟩,
    _, h3, rfl, List.getElem?_set_self hlt⟩
  obtain ⟨u', rfl⟩ := hp key u hu
  exact ⟨u', List.getElem?_set_self hlt⟩

/-- C157: `x op= y` for numbers: `x` may be an element of an array of numbers or of vars or the value of a key, `y` a number or a variable that is one, also the same element.
    The right operand is converted to the type of the left one; no other variable, element or array changes. -/
theorem number_op [Env α] (F : Bin α) (hc : F.op = .pow → ConvSame α) {s : State α} (hr : Reach s) {n : Nat} {v : V α} (hv : s.stk[n]? = some v) {k : Kind} {x : α}
    (hx : NumberAt s.mem v k x) {e : Exp α} {j : Kind} {y : α} (he : Operand s e j y) (ht : Takes F j y k x) {d : Nat} (hd : 1 ≤ d) :
    ∃ s' v', run (.eval (.arithTo F d n e n)) s = .ok () s' ∧ s'.stk[n]? = some v' ∧ NumberAt s'.mem v' k (F.f k x (Env.conv j k y)) ∧ OnlyTarget s s' n v := by
  obtain ⟨own, hi⟩ := reach_inv hr
  obtain ⟨d, rfl⟩ : ∃ e, d = e + 1 := ⟨d - 1, by omega⟩
  obtain ⟨m0, w, e0, i0, k0, l0, hw, -⟩ := operand_eval hi he
  have i1 : Inv ⟨m0, s.stk ++ [w]⟩ own := Inv.push (s := ⟨m0, s.stk⟩) i0
  have hlt := (List.getElem?_eq_some_iff.1 hv).1
  have hv1 : (s.stk ++ [w])[n]? = some v := by rw [List.getElem?_append_left hlt]; exact hv
  obtain ⟨hd0, hs⟩ := numberAt_deno hx
  have hd1 : Deno m0 v (.num k x) := hd0.kept k0 (fun _ _ _ => id) fun b hb => l0 b (hi.stk_live (mem_stkPtrs hv hb))
  have ea := arith_num (F := F) (d := d) (s := ⟨m0, s.stk ++ [w]⟩) hd1 hs.2 hw (takes_op ht.1 ht.2.1) ht.2.2 (.slot n)
  cases hx with
  | plain hs =>
    obtain ⟨m2, e2, i2, k2⟩ := store_slot (F := F) (s := ⟨m0, s.stk ++ [w]⟩) i1 hv1 hs (F.f k x (Env.conv j k y))
    have hset : ∀ u : V α, (s.stk ++ [w]).set n u = s.stk.set n u ++ [w] := fun u => List.set_append_left _ _ hlt
    simp only [hset] at e2 i2
    obtain ⟨m3, e3, i3, k3⟩ := arithTo_wrap e0 hv (ea.trans e2) (by simp) i2
    exact ⟨_, _, e3, List.getElem?_set_self hlt, .plain hs, all_same ((Oth.trans k0 k2).trans k3), by simp, fun l hl => List.getElem?_set_ne (Ne.symm hl)⟩
  | @elem a i o _ _ h1 h2 h3 h4 =>
    subst h2
    have ho : Is m0 a o.kind o.size o.cells := Is.kept ⟨o.rc, h1⟩ k0 id (l0 a ⟨_, h1⟩)
    obtain ⟨m2, e2, i2, q2, k2⟩ := store_raw hc (s := ⟨m0, s.stk ++ [w]⟩) i1 hv1 ho h3 h4 (F.f o.kind x (Env.conv j o.kind y))
    obtain ⟨m3, e3, i3, k3⟩ := arithTo_wrap e0 hv (ea.trans e2) rfl i2
    obtain ⟨r1, o3, r2, r3, r4⟩ := only_element h1 hv q2 k2 k0 k3 i3 (fun key u hu => by rw [h4] at hu; cases hu) (List.getElem?_eq_some_iff.1 h4).1
    exact ⟨_, _, e3, hv, .elem r2 r3 h3 r4, r1⟩
  | @var a i o _ _ h1 h2 h3 h4 =>
    have ho : Is m0 a o.kind o.size o.cells := Is.kept ⟨o.rc, h1⟩ k0 id (l0 a ⟨_, h1⟩)
    obtain ⟨m2, e2, i2, q2, k2⟩ := store_var (F := F) (s := ⟨m0, s.stk ++ [w]⟩) i1 hv1 ho (.inl h2) h4 rfl h3 (F.f k x (Env.conv j k y))
    obtain ⟨m3, e3, i3, k3⟩ := arithTo_wrap e0 hv (ea.trans e2) rfl i2
    obtain ⟨r1, o3, r2, r3, r4⟩ := only_element h1 hv q2 k2 k0 k3 i3 (fun key u hu => by rw [h4] at hu; cases hu) (List.getElem?_eq_some_iff.1 h4).1
    exact ⟨_, _, e3, hv, .var r2 (r3.trans h2) h3 r4, r1⟩
  | @value a i o key _ _ h1 h2 h3 h4 =>
    have ho : Is m0 a o.kind o.size o.cells := Is.kept ⟨o.rc, h1⟩ k0 id (l0 a ⟨_, h1⟩)
    obtain ⟨m2, e2, i2, q2, k2⟩ := store_var (F := F) (s := ⟨m0, s.stk ++ [w]⟩) i1 hv1 ho (.inr h2) h4 rfl h3 (F.f k x (Env.conv j k y))
    obtain ⟨m3, e3, i3, k3⟩ := arithTo_wrap e0 hv (ea.trans e2) rfl i2
    obtain ⟨r1, o3, r2, r3, r4⟩ := only_element h1 hv q2 k2 k0 k3 i3 (fun key u hu => by rw [h4] at hu; cases hu; exact ⟨_, rfl⟩) (List.getElem?_eq_some_iff.1 h4).1
    exact ⟨_, _, e3, hv, .value r2 (r3.trans h2) h3 r4, r1⟩

/-! ## Nested data -/

/-- C158: `x op= y` for nested data and a number, other than multiplication: every number is changed exactly once, at any depth, and the structure is kept; no other array changes.
    Missing: multiplication (`mul_throws`), data in which an array occurs at two places, arrays of `cdouble`, and a right operand that is an element (`own_element_changes`). -/
theorem nested_op_partial [Env α] (F : Bin α) (hF : F.op ≠ .mul) (hc : F.op = .pow → ConvSame α) {s : State α} (hr : Reach s) {n : Nat} {v : V α} (hv : s.stk[n]? = some v) {t : Nested α}
    {fp : List Addr} (h : IsTree s.mem v t fp) (hnd : fp.Nodup) {e : Exp α} {j : Kind} {y : α} (he : PlainOperand s e j y) (hall : t.All (Takes F j y) (· ≠ .cdouble)) {d : Nat} (hd : t.depth ≤ d) :
    ∃ s' w, run (.eval (.arithTo F d n e n)) s = .ok () s' ∧ s'.stk = s.stk.set n w ∧ IsTree s'.mem w (t.mapNums (result F j y) fun _ _ z => z) fp ∧ Beside s s' fp := by
  obtain ⟨own, hi⟩ := reach_inv hr
  have hlt := (List.getElem?_eq_some_iff.1 hv).1
  have i1 : Inv ⟨s.mem, s.stk ++ [.num j y]⟩ own := Inv.push (s := s) (v := .num j y) (by simpa [V.ptr] using hi)
  have hv1 : (s.stk ++ [(.num j y : V α)])[n]? = some v := by rw [List.getElem?_append_left hlt]; exact hv
  obtain ⟨m2, w, e2, i2, t2, k2⟩ := each_place (each_arith F hF hc j y) (s := ⟨s.mem, s.stk ++ [.num j y]⟩) i1 hv1 h hnd hall hd
  have hset : ∀ u : V α, (s.stk ++ [(.num j y : V α)]).set n u = s.stk.set n u ++ [.num j y] := fun u => List.set_append_left _ _ hlt
  simp only [hset] at e2 i2
  obtain ⟨m3, e3, i3, k3⟩ := arithTo_wrap (m0 := s.mem) (w := .num j y) (plain_eval he) hv e2 (by simp) i2
  have hw : (s.stk.set n w)[n]? = some w := List.getElem?_set_self hlt
  exact ⟨_, w, e3, rfl, isTree_kept k3 i3 t2 (fun b hb => i3.stk_live (mem_stkPtrs hw hb)) fun _ _ => id, beside (k2.trans k3.oth) (tree_live h)⟩

/-! ## Arrays of numbers -/

/-- C158: `x *= y` for an array of floats or doubles and a number: every element is multiplied, `y` may be one of them. -/
theorem scale_op [Env α] (F : Bin α) (hF : F.op = .mul) {s : State α} (hr : Reach s) {n : Nat} {k : Kind} {xs : List α} (hx : Contents s n k xs) (hk : k = .float ∨ k = .double)
    {e : Exp α} {j : Kind} {y : α} (he : Operand s e j y) (hok : ∀ x ∈ xs, F.ok k x (Env.conv j k y) = true) {d : Nat} (hd : 1 ≤ d) :
    ∃ s' a, run (.eval (.arithTo F d n e n)) s = .ok () s' ∧ s'.stk = s.stk ∧ s.stk[n]? = some (.arr a) ∧ Contents s' n k (xs.map fun x => F.f k x (Env.conv j k y)) ∧ Beside s s' [a] := by
  obtain ⟨own, hi⟩ := reach_inv hr
  obtain ⟨d, rfl⟩ : ∃ e, d = e + 1 := ⟨d - 1, by omega⟩
  obtain ⟨a, o, hv, ho, rfl, hsz, hel⟩ := hx
  obtain ⟨m0, w, e0, i0, k0, l0, hw, -⟩ := operand_eval hi he
  have i1 : Inv ⟨m0, s.stk ++ [w]⟩ own := Inv.push (s := ⟨m0, s.stk⟩) i0
  have hlt := (List.getElem?_eq_some_iff.1 hv).1
  have hv1 : (s.stk ++ [w])[n]? = some (.arr a) := by rw [List.getElem?_append_left hlt]; exact hv
  have h0 : Is m0 a o.kind o.size o.cells := Is.kept ⟨o.rc, ho⟩ k0 id (l0 a ⟨_, ho⟩)
  have hkc : o.kind ≠ .cdouble := by rcases hk with h | h <;> rw [h] <;> decide
  let z : α → α := fun x => F.f o.kind x (Env.conv j o.kind y)
  have hwp : ∀ b ∈ w.ptr.toList, b ∈ stkPtrs (s.stk ++ [w]) := fun b hb => by rw [stkPtrs_append]; simp [Option.mem_toList.1 hb]
  obtain ⟨m2, e2, i2, ⟨cells, q1, q2⟩, k2⟩ := arith_wrap (F := F) (d := d) (s := ⟨m0, s.stk ++ [w]⟩) (lo := .slot n) i1 (v := .arr a) (w := w) (.self id) (fun b hb => mem_stkPtrs hv1 hb)
    hwp h0 hkc
    (Q := fun m => (∃ cells : List (Cell α), Is m a o.kind o.size cells ∧ ∀ (i : Nat) (x : α), xs[i]? = some x → cells[i]? = some (.raw (some (z x)))) ∧ Oth (· = a) m0 m)
    (fun {m m'} hq hk hi => by
      obtain ⟨⟨cells, g1, g2⟩, g3⟩ := hq
      exact ⟨⟨cells, g1.kept hk id (hi.stk_live (mem_stkPtrs hv1 (by simp [V.ptr]))), g2⟩, g3.trans hk.oth⟩)
    (fun m1 k1 i3 => by
      have hv3 : (s.stk ++ [w] ++ [.arr a, w])[n]? = some (.arr a) := get_appendL hv1 _
      obtain ⟨rc, h1⟩ := h0.kept k1 id (i3.stk_live (mem_stkPtrs hv3 (by simp [V.ptr])))
      have hw1 : Deno m1 w (.num j y) := hw.kept k1 (fun _ _ _ => id) fun b hb => i3.stk_live (up_stkL _ (hwp b hb))
      obtain ⟨cells, e4, g1, g2⟩ := scaleLoop_run F (y := Env.conv j o.kind y) (m := n) (a := a) o.size 0 (s := ⟨m1, s.stk ++ [w] ++ [.arr a, w]⟩) hv3 h1 (fun l _ hl => by
        have hl : l < xs.length := by omega
        have hc := hel l _ (List.getElem?_eq_getElem hl)
        exact ⟨xs[l], _, ⟨_, h1, hc⟩, hc, hok _ (List.getElem_mem hl)⟩)
      have i4 := (scaleLoop_keep (lk := false) F o.kind (.arr a) (Env.conv j o.kind y) (.slot n) o.size 0).inv (own := own) (by simpa using i3) e4
      simp only [List.nil_append] at i4
      refine ⟨_, ?_, i4, ⟨cells, ⟨rc, upd_get (s := ⟨m1, s.stk ++ [w] ++ [.arr a, w]⟩) h1 _⟩, fun i x hx => g1 i x (Nat.zero_le _) (by have := (List.getElem?_eq_some_iff.1 hx).1; omega) ⟨_, h1, hel i x hx⟩⟩,
        (Kept.oth k1).trans ⟨by simp [upd], fun c p hc _ hp => ?_⟩⟩
      · unfold arithArr
        refine (bind_eq (sizeV_number (s := ⟨m1, s.stk ++ [w] ++ [.arr a, w]⟩) hw1)).trans ?_
        rw [if_pos rfl, if_pos hF]
        unfold scaleArr
        refine (bind_eq (sizeV_deno (s := ⟨m1, s.stk ++ [w] ++ [.arr a, w]⟩) (v := .arr a) (.self id) ⟨rc, h1⟩)).trans ?_
        refine (bind_eq (atypeV_deno (s := ⟨m1, s.stk ++ [w] ++ [.arr a, w]⟩) (v := .arr a) (.self id) h1)).trans ?_
        simp only [if_pos hk]
        exact (bind_eq (cast_deno (s := ⟨m1, s.stk ++ [w] ++ [.arr a, w]⟩) hw1 o.kind)).trans e4
      · rw [List.getElem?_set_ne (fun h => hc h.symm)] at hp
        exact ⟨p, hp, rfl, rfl, rfl⟩)
  obtain ⟨m3, e3, i3, k3⟩ := arithTo_wrap e0 hv e2 rfl i2
  obtain ⟨rc, q3⟩ := q1.kept k3 id (i3.stk_live (mem_stkPtrs hv (by simp [V.ptr])))
  refine ⟨_, a, e3, rfl, hv, ⟨a, _, hv, q3, rfl, by simpa using hsz, fun i u hu => ?_⟩, beside (((Kept.oth k0).trans (k2.mono (by simp))).trans k3.oth) (by simpa using ⟨o, ho⟩)⟩
  rw [List.getElem?_map] at hu
  obtain ⟨x, hx, rfl⟩ := Option.map_eq_some_iff.1 hu
  exact q2 i x hx

/-- The element types for which the operation takes two arrays. -/
def VectorType (op : ArithOp) (k : Kind) : Prop := (op = .add ∨ op = .sub ∨ op = .mul) ∧ (k = .float ∨ k = .double ∨ (k = .cfloat ∧ op = .add))

theorem vectorType_ok {op : ArithOp} {k : Kind} (h : VectorType op k) : op.vectorTypes k = true ∧ k ≠ .cdouble ∧ op ≠ .div ∧ op ≠ .pow := by
  obtain ⟨h1 | h1 | h1, h2 | h2 | ⟨h2, h3⟩⟩ := h <;> simp_all [ArithOp.vectorTypes]

/-- C158: `x += y`, `x -= y` and `x *= y` for two arrays of the same type: the first elements of `x` are those with the elements of `y`, the others stay; `y` may be `x` itself.
    Missing: `y` with one element, which counts as a number, and `y` with more elements than `x`, where the end of `x` is passed. -/
theorem vector_op_partial [Env α] (F : Bin α) {s : State α} (hr : Reach s) {n m : Nat} {k : Kind} {xs ys : List α} (hx : Contents s n k xs) (hy : Contents s m k ys) (hk : VectorType F.op k)
    (hl : ys.length ≤ xs.length) (h1 : ys.length ≠ 1) (hne : xs ≠ []) (hok : ∀ (i : Nat) (x y : α), xs[i]? = some x → ys[i]? = some y → F.ok k x y = true) {d : Nat} (hd : 1 ≤ d) :
    ∃ s' a, run (.eval (.arithTo F d n (.name m) n)) s = .ok () s' ∧ s'.stk = s.stk ∧ s.stk[n]? = some (.arr a) ∧
      Contents s' n k (List.zipWith (F.f k) xs ys ++ xs.drop ys.length) ∧ Beside s s' [a] := by
  obtain ⟨own, hi⟩ := reach_inv hr
  obtain ⟨d, rfl⟩ : ∃ e, d = e + 1 := ⟨d - 1, by omega⟩
  obtain ⟨a, o, hv, ho, rfl, hsz, hel⟩ := hx
  obtain ⟨b, p, hw, hp, hpk, hps, hpe⟩ := hy
  obtain ⟨hk1, hk2, hk3, hk4⟩ := vectorType_ok hk
  obtain ⟨m0, e0, i0, k0, l0⟩ := attach_tot hi (v := .arr b) (fun c hc => hi.stk_live (mem_stkPtrs hw hc))
  have he : eval (.name m) s = .ok (.arr b) ⟨m0, s.stk⟩ := by
    show (readLoc (.slot m) >>= fun v => copyV v) s = _
    rw [bind_eq (readSlot hw)]
    unfold copyV
    exact (bind_eq e0).trans rfl
  have i1 : Inv ⟨m0, s.stk ++ [.arr b]⟩ own := Inv.push (s := ⟨m0, s.stk⟩) i0
  have hlt := (List.getElem?_eq_some_iff.1 hv).1
  have hv1 : (s.stk ++ [.arr b])[n]? = some (.arr a) := by rw [List.getElem?_append_left hlt]; exact hv
  have hw1 : (s.stk ++ [.arr b])[m]? = some (.arr b) := by rw [List.getElem?_append_left (List.getElem?_eq_some_iff.1 hw).1]; exact hw
  have h0 : Is m0 a o.kind o.size o.cells := Is.kept ⟨o.rc, ho⟩ k0 id (l0 a ⟨_, ho⟩)
  have h0' : Is m0 b p.kind p.size p.cells := Is.kept ⟨p.rc, hp⟩ k0 id (l0 b ⟨_, hp⟩)
  obtain ⟨m2, e2, i2, ⟨cells, q1, q2, q3⟩, k2⟩ := arith_wrap (F := F) (d := d) (s := ⟨m0, s.stk ++ [.arr b]⟩) (lo := .slot n) i1 (v := .arr a) (w := .arr b) (.self id)
    (fun b hb => mem_stkPtrs hv1 hb) (fun b hb => mem_stkPtrs hw1 hb) h0 hk2
    (Q := fun m => (∃ cells : List (Cell α), Is m a o.kind o.size cells ∧
      (∀ (i : Nat) (x y : α), xs[i]? = some x → ys[i]? = some y → cells[i]? = some (.raw (some (F.f o.kind x y)))) ∧ ∀ i : Nat, ys.length ≤ i → cells[i]? = o.cells[i]?) ∧ Oth (· = a) m0 m)
    (fun {m m'} hq hk hi => by
      obtain ⟨⟨cells, g1, g2⟩, g3⟩ := hq
      exact ⟨⟨cells, g1.kept hk id (hi.stk_live (mem_stkPtrs hv1 (by simp [V.ptr]))), g2⟩, g3.trans hk.oth⟩)
    (fun m1 k1 i3 => by
      have hv3 : (s.stk ++ [.arr b] ++ [.arr a, .arr b])[n]? = some (.arr a) := get_appendL hv1 _
      have hw3 : (s.stk ++ [.arr b] ++ [.arr a, .arr b])[m]? = some (.arr b) := get_appendL hw1 _
      obtain ⟨rc, g1⟩ := h0.kept k1 id (i3.stk_live (mem_stkPtrs hv3 (by simp [V.ptr])))
      obtain ⟨rc', g1'⟩ := h0'.kept k1 id (i3.stk_live (mem_stkPtrs hw3 (by simp [V.ptr])))
      obtain ⟨cells, e4, g2, g3⟩ := vecLoop_run F (m := n) (a := a) (b := b) p.size 0 (s := ⟨m1, s.stk ++ [.arr b] ++ [.arr a, .arr b]⟩) hv3 g1 (fun l _ hl' => by
        have hly : l < ys.length := by omega
        have hlx : l < xs.length := by omega
        have hc := hel l _ (List.getElem?_eq_getElem hlx)
        exact ⟨xs[l], ys[l], _, ⟨_, g1, hc⟩, ⟨_, g1', hpe l _ (List.getElem?_eq_getElem hly)⟩, hc,
          hok l _ _ (List.getElem?_eq_getElem hlx) (List.getElem?_eq_getElem hly)⟩)
      have i4 := (vecLoop_keep (lk := false) F o.kind (.arr a) (.arr b) (.slot n) p.size 0).inv (own := own) (by simpa using i3) e4
      simp only [List.nil_append] at i4
      refine ⟨_, ?_, i4, ⟨cells, ⟨rc, upd_get (s := ⟨m1, s.stk ++ [.arr b] ++ [.arr a, .arr b]⟩) g1 _⟩, fun i x y hx hy => ?_, fun i hi => g3 i (by omega)⟩,
        (Kept.oth k1).trans ⟨by simp [upd], fun c p hc _ hp => ?_⟩⟩
      · unfold arithArr
        refine (bind_eq (sizeV_deno (s := ⟨m1, s.stk ++ [.arr b] ++ [.arr a, .arr b]⟩) (v := .arr b) (.self id) ⟨rc', g1'⟩)).trans ?_
        rw [if_neg (by omega)]
        refine (bind_eq (atypeV_deno (s := ⟨m1, s.stk ++ [.arr b] ++ [.arr a, .arr b]⟩) (v := .arr a) (.self id) g1)).trans ?_
        refine (bind_eq (atypeV_deno (s := ⟨m1, s.stk ++ [.arr b] ++ [.arr a, .arr b]⟩) (v := .arr b) (.self id) g1')).trans ?_
        simp only [hpk, ne_eq, not_true_eq_false, if_false]
        refine (bind_eq (sizeV_deno (s := ⟨m1, s.stk ++ [.arr b] ++ [.arr a, .arr b]⟩) (v := .arr a) (.self id) ⟨rc, g1⟩)).trans ?_
        have hxl : xs.length ≠ 0 := by simpa using hne
        rw [if_neg (by omega)]
        unfold vectorArr
        rw [if_neg (by simp [hk3, hk4])]
        have es : isSame false (.arr a) (.slot n) ⟨m1, s.stk ++ [.arr b] ++ [.arr a, .arr b]⟩ = .ok true ⟨m1, s.stk ++ [.arr b] ++ [.arr a, .arr b]⟩ := by
          unfold isSame
          simp only [Bool.false_eq_true, if_false]
          refine (bind_eq (readSlot (s := ⟨m1, s.stk ++ [.arr b] ++ [.arr a, .arr b]⟩) hv3)).trans ?_
          simp [heapOf, derefV, bind_run, M.bind, pure_run]
        refine (bind_eq es).trans ?_
        rw [if_neg (by simp)]
        refine (bind_eq (sizeV_deno (s := ⟨m1, s.stk ++ [.arr b] ++ [.arr a, .arr b]⟩) (v := .arr b) (.self id) ⟨rc', g1'⟩)).trans ?_
        rw [if_pos hk1]
        exact e4
      · have := (List.getElem?_eq_some_iff.1 hy).1
        exact g2 i x y (Nat.zero_le _) (by omega) ⟨_, g1, hel i x hx⟩ ⟨_, g1', hpe i y hy⟩
      · rw [List.getElem?_set_ne (fun h => hc h.symm)] at hp
        exact ⟨p, hp, rfl, rfl, rfl⟩)
  obtain ⟨m3, e3, i3, k3⟩ := arithTo_wrap he hv e2 rfl i2
  obtain ⟨rc, q4⟩ := q1.kept k3 id (i3.stk_live (mem_stkPtrs hv (by simp [V.ptr])))
  refine ⟨_, a, e3, rfl, hv, ⟨a, _, hv, q4, rfl, by simp; omega, fun i u hu => ?_⟩, beside (((Kept.oth k0).trans (k2.mono (by simp))).trans k3.oth) (by simpa using ⟨o, ho⟩)⟩
  rw [List.getElem?_append] at hu
  split at hu
  · rw [List.getElem?_zipWith_eq_some] at hu
    obtain ⟨x, y, hx, hy, rfl⟩ := hu
    exact q2 i x y hx hy
  · rename_i hi
    simp only [List.length_zipWith, Nat.min_eq_right hl, Nat.not_lt] at hi
    rw [List.getElem?_drop, List.length_zipWith, Nat.min_eq_right hl, Nat.add_sub_cancel' hi] at hu
    rw [q3 i hi]
    exact hel i u hu

/-! ## New values -/

/-- C157: `x op y` for numbers is a new number of the type of `x`; nothing changes.  Both may be elements. -/
theorem number_new [Env α] (F : Bin α) {s : State α} (hr : Reach s) {n : Nat} {v : V α} (hv : s.stk[n]? = some v) {k : Kind} {x : α} (hx : NumberAt s.mem v k x)
    {e : Exp α} {j : Kind} {y : α} (he : Operand s e j y) (ht : Takes F j y k x) {d : Nat} (hd : 1 ≤ d) :
    ∃ s', eval (.arith F d n e) s = .ok (.num k (F.f k x (Env.conv j k y))) s' ∧ s'.stk = s.stk ∧ AllSame s s' := by
  obtain ⟨own, hi⟩ := reach_inv hr
  obtain ⟨d, rfl⟩ : ∃ e, d = e + 1 := ⟨d - 1, by omega⟩
  obtain ⟨m0, w, e0, i0, k0, l0, hw, hwp⟩ := operand_eval hi he
  obtain ⟨hd0, hs⟩ := numberAt_deno hx
  obtain ⟨m6, e6, k6⟩ := arithNew_number (F := F) (d := d) e0 i0 hv (hd0.kept k0 (fun _ _ _ => id) fun b hb => l0 b (hi.stk_live (mem_stkPtrs hv hb))) hs hw hwp ht
  exact ⟨_, e6, rfl, all_same (Oth.trans k0 k6)⟩

/-- C158: `x op y` for an array of numbers and a number is a new array; `x` and all others are as they were.  Multiplication is for floats and doubles only.
    Missing: arrays of vars (`new_vars_corrupts`) and of `cdouble`. -/
theorem array_new_partial [Env α] (F : Bin α) (hc : F.op = .pow → ConvSame α) {s : State α} (hr : Reach s) {n : Nat} {k : Kind} {xs : List α} (hx : Contents s n k xs) (hk : Scalar k)
    (hm : F.op = .mul → k = .float ∨ k = .double) (hf : Fits xs) {e : Exp α} {j : Kind} {y : α} (he : PlainOperand s e j y) (ht : ∀ x ∈ xs, Takes F j y k x) {d : Nat} (hd : 2 ≤ d) :
    ∃ s' o, eval (.arith F d n e) s = .ok (.arr s.mem.length) s' ∧ s'.stk = s.stk ∧ s'.mem[s.mem.length]? = some (some o) ∧
      Elements o k (xs.map fun x => F.f k x (Env.conv j k y)) ∧ AllSame s s' := by
  have hf : xs.length + 2 ≤ 2 ^ 30 := hf
  obtain ⟨own, hi⟩ := reach_inv hr
  obtain ⟨d, rfl⟩ : ∃ e, d = e + 2 := ⟨d - 2, by omega⟩
  obtain ⟨a, o, hv, ho, rfl, hsz, hel⟩ := hx
  have halt : a < s.mem.length := lt_of_alive ho
  have hlt := (List.getElem?_eq_some_iff.1 hv).1
  obtain ⟨m6, cells', e6, ⟨rc, q6⟩, r6, k6⟩ := arithNew_wrap (F := F) (d := d + 2) (n := n) hi (m0 := s.mem) (w := .num j y) (plain_eval he) (by simpa [V.ptr] using hi) (Oth.refl _ _) (fun _ h => h) hv
    ⟨o.rc, ho⟩ hk.1 (by omega)
    (R := fun cells => ∀ (i : Nat) (x : α), xs[i]? = some x → cells[i]? = some (.raw (some (F.f o.kind x (Env.conv j o.kind y)))))
    (fun m3 cells i3 k3 hob hcl => by
      have hv3 : (s.stk ++ [(.num j y : V α)] ++ [.arr s.mem.length])[n]? = some (.arr a) := by
        rw [List.append_assoc, List.getElem?_append_left hlt]; exact hv
      have has := mem_stkPtrs hv3 (a := a) (by simp [V.ptr])
      obtain ⟨rc3, g3⟩ : Is m3 a o.kind o.size o.cells := Is.kept (m1 := s.mem) ⟨o.rc, ho⟩ k3 id (i3.stk_live has)
      have hl3 : (s.stk ++ [(.num j y : V α)] ++ [.arr s.mem.length])[s.stk.length + 1]? = some (.arr s.mem.length) := by simp
      by_cases hF : F.op = .mul
      · obtain ⟨m4, e4, i4, ⟨cells', q1, q2⟩, k4⟩ := arith_wrap (F := F) (d := d + 1) (s := ⟨m3, s.stk ++ [.num j y] ++ [.arr s.mem.length]⟩) (lo := .slot (s.stk.length + 1)) i3 (v := .arr a)
          (w := .num j y) (.self id) (fun b hb => mem_stkPtrs hv3 hb) (by simp [V.ptr]) ⟨rc3, g3⟩ hk.2
          (Q := fun m => (∃ cells : List (Cell α), Is m s.mem.length o.kind o.size cells ∧
            ∀ (i : Nat) (x : α), xs[i]? = some x → cells[i]? = some (.raw (some (F.f o.kind x (Env.conv j o.kind y))))) ∧ Oth (· = s.mem.length) m3 m)
          (fun {m m'} hq hk hi => by
            obtain ⟨⟨cells, g1, g2⟩, g3⟩ := hq
            exact ⟨⟨cells, g1.kept hk id (hi.stk_live (mem_stkPtrs hl3 (by simp [V.ptr]))), g2⟩, g3.trans hk.oth⟩)
          (fun m1 k1 i4 => by
            obtain ⟨stk4, hst⟩ : ∃ l, l = s.stk ++ [(.num j y : V α)] ++ [.arr s.mem.length] ++ [.arr a, .num j y] := ⟨_, rfl⟩
            have hv4 : stk4[n]? = some (.arr a) := by rw [hst]; exact get_appendL hv3 _
            have hl4 : stk4[s.stk.length + 1]? = some (.arr s.mem.length) := by rw [hst]; exact get_appendL hl3 _
            rw [← hst] at i4
            obtain ⟨rc, h1⟩ := Is.kept (m1 := m3) ⟨rc3, g3⟩ k1 id (i4.stk_live (mem_stkPtrs hv4 (by simp [V.ptr])))
            obtain ⟨rc', h2⟩ := hob.kept k1 id (i4.stk_live (mem_stkPtrs hl4 (by simp [V.ptr])))
            obtain ⟨cells', e4, g1, g2⟩ := scaleLoop_run F (y := Env.conv j o.kind y) (m := s.stk.length + 1) (a := a) o.size 0 (s := ⟨m1, stk4⟩) hl4 h2 (fun l _ hl => by
              have hl' : l < xs.length := by omega
              obtain ⟨u, hu⟩ := hcl l (by omega)
              exact ⟨xs[l], u, ⟨_, h1, hel l _ (List.getElem?_eq_getElem hl')⟩, hu, (ht _ (List.getElem_mem hl')).2.2⟩)
            have i5 := (scaleLoop_keep (lk := false) F o.kind (.arr a) (Env.conv j o.kind y) (.slot (s.stk.length + 1)) o.size 0).inv (own := own) (by simpa using i4) e4
            simp only [List.nil_append] at i5
            simp only [← hst]
            refine ⟨_, ?_, i5, ⟨cells', ⟨rc', upd_get (s := ⟨m1, stk4⟩) h2 _⟩,
              fun i x hx => g1 i x (Nat.zero_le _) (by have := (List.getElem?_eq_some_iff.1 hx).1; omega) ⟨_, h1, hel i x hx⟩⟩, (Kept.oth k1).trans ⟨by simp [upd], fun c p hc _ hp => ?_⟩⟩
            · unfold arithArr
              refine (bind_eq (m := sizeV (.num j y)) (b := 1) rfl).trans ?_
              rw [if_pos rfl, if_pos hF]
              unfold scaleArr
              refine (bind_eq (sizeV_deno (s := ⟨m1, stk4⟩) (v := .arr a) (.self id) ⟨rc, h1⟩)).trans ?_
              refine (bind_eq (atypeV_deno (s := ⟨m1, stk4⟩) (v := .arr a) (.self id) h1)).trans ?_
              simp only [if_pos (hm hF)]
              exact e4
            · rw [List.getElem?_set_ne (fun h => hc h.symm)] at hp
              exact ⟨p, hp, rfl, rfl, rfl⟩)
        exact ⟨m4, cells', e4, i4, q1, q2, k4⟩
      · obtain ⟨m4, cells', e4, i4, q1, q2, -, k4⟩ := scalar_numsTo (each_arith F hF hc j y) (d := d) (s := ⟨m3, s.stk ++ [.num j y] ++ [.arr s.mem.length]⟩) (m := s.stk.length + 1) i3 has
          (by omega) hl3 g3 hk.1 hk.2 ⟨rfl, hsz, hel⟩ ht rfl hk.1 hob (fun j hj => hcl j (by omega))
        exact ⟨m4, cells', e4, i4, q1, q2, k4⟩)
  refine ⟨_, _, e6, rfl, q6, ⟨rfl, by simpa using hsz, fun i u hu => ?_⟩, all_same k6⟩
  rw [List.getElem?_map] at hu
  obtain ⟨x, hx, rfl⟩ := Option.map_eq_some_iff.1 hu
  exact r6 i x hx

/-! ## Exceptions -/

/-- C157: arithmetic on nil throws, and nothing changes. -/
theorem nil_throws [Env α] (F : Bin α) {s : State α} (hr : Reach s) {n : Nat} {v : V α} (hv : s.stk[n]? = some v) (hx : NilAt s.mem v) {e : Exp α} {j : Kind} {y : α} (he : Operand s e j y)
    {d : Nat} (hd : 1 ≤ d) : ∃ s', run (.eval (.arithTo F d n e n)) s = .thrown (.error "var::atype(): Undefined") s' ∧ s'.stk = s.stk ∧ AllSame s s' := by
  obtain ⟨own, hi⟩ := reach_inv hr
  obtain ⟨d, rfl⟩ : ∃ e, d = e + 1 := ⟨d - 1, by omega⟩
  obtain ⟨m0, w, e0, i0, k0, l0, -, -⟩ := operand_eval hi he
  have i1 : Inv ⟨m0, s.stk ++ [w]⟩ own := Inv.push (s := ⟨m0, s.stk⟩) i0
  have hd0 : Deno s.mem v .nil := by
    cases hx with
    | plain => exact .self id
    | @var a i o h1 h2 h3 => exact .var ⟨o.rc, h1⟩ (.inl h2) h3 rfl id
    | @value a i o key h1 h2 h3 => exact .var ⟨o.rc, h1⟩ (.inr h2) h3 rfl id
  have hd1 : Deno m0 v .nil := hd0.kept k0 (fun _ _ _ => id) fun b hb => l0 b (hi.stk_live (mem_stkPtrs hv hb))
  have ed : derefV v ⟨m0, s.stk ++ [w]⟩ = .ok .nil ⟨m0, s.stk ++ [w]⟩ := by
    obtain ⟨u, h1, h2⟩ := derefV_tot (s := ⟨m0, s.stk ++ [w]⟩) hd1
    rcases h2 with rfl | ⟨b, j, k, n, cells, x, -, -, -, h⟩
    · exact h1
    · cases h
  have ea : arith F (d + 1) v w (.slot n) ⟨m0, s.stk ++ [w]⟩ = .thrown (.error "var::atype(): Undefined") ⟨m0, s.stk ++ [w]⟩ := by
    unfold arith
    refine bind_thr ?_
    simp [mathType, typeV, atypeV, ed, bind_run, M.bind, pure_run, throwE]
  obtain ⟨m3, e3, k3⟩ := arithTo_thr e0 hv ea i1
  exact ⟨_, e3, rfl, all_same (Oth.trans k0 k3)⟩

/-- C158: multiplication of an array by a number throws unless the elements are floats or doubles, also for an array of vars or a map. -/
theorem mul_throws [Env α] (F : Bin α) (hF : F.op = .mul) {s : State α} (hr : Reach s) {n : Nat} {a : Addr} (hv : s.stk[n]? = some (.arr a)) {o : Obj α} (ho : s.mem[a]? = some (some o))
    (hk : o.kind ≠ .float ∧ o.kind ≠ .double ∧ o.kind ≠ .cdouble) {e : Exp α} {j : Kind} {y : α} (he : Operand s e j y) {d : Nat} (hd : 1 ≤ d) :
    ∃ s', run (.eval (.arithTo F d n e n)) s = .thrown (.error "Mul::scal: Unknown type") s' ∧ s'.stk = s.stk ∧ AllSame s s' := by
  obtain ⟨own, hi⟩ := reach_inv hr
  obtain ⟨d, rfl⟩ : ∃ e, d = e + 1 := ⟨d - 1, by omega⟩
  obtain ⟨m0, w, e0, i0, k0, l0, hw, -⟩ := operand_eval hi he
  have i1 : Inv ⟨m0, s.stk ++ [w]⟩ own := Inv.push (s := ⟨m0, s.stk⟩) i0
  have hlt := (List.getElem?_eq_some_iff.1 hv).1
  have hv1 : (s.stk ++ [w])[n]? = some (.arr a) := by rw [List.getElem?_append_left hlt]; exact hv
  have hwp : ∀ b ∈ w.ptr.toList, b ∈ stkPtrs (s.stk ++ [w]) := fun b hb => by rw [stkPtrs_append]; simp [Option.mem_toList.1 hb]
  have h0 : Is m0 a o.kind o.size o.cells := Is.kept ⟨o.rc, ho⟩ k0 id (l0 a ⟨_, ho⟩)
  obtain ⟨m1, e1, i2, k1, l1⟩ := attach_tot i1 (v := .arr a) (fun b hb => i1.stk_live (mem_stkPtrs hv1 hb))
  have i2 : Inv ⟨m1, s.stk ++ [w] ++ [.arr a]⟩ own := Inv.push (s := ⟨m1, s.stk ++ [w]⟩) i2
  obtain ⟨m2, e2, i3, k2, l2⟩ := attach_tot i2 (v := w) (fun b hb => i2.stk_live (up_stk _ (hwp b hb)))
  have k12 := Oth.trans k1 k2
  obtain ⟨rc, h2⟩ := h0.kept k12 id (l2 a (l1 a h0.live))
  have hw2 : Deno m2 w (.num j y) := hw.kept k12 (fun _ _ _ => id) fun b hb => l2 b (l1 b (i1.stk_live (hwp b hb)))
  obtain ⟨m3, e3, i4, k3⟩ := detach_tot (v := w) (own := own) (s := ⟨m2, s.stk ++ [w] ++ [.arr a]⟩) i3
  obtain ⟨m4, e4, i5, k4⟩ := detach_tot (v := .arr a) (own := own) (s := ⟨m3, s.stk ++ [w]⟩) (Inv.pop i4)
  have ea : arith F (d + 1) (.arr a) w (.slot n) ⟨m0, s.stk ++ [w]⟩ = .thrown (.error "Mul::scal: Unknown type") ⟨m4, s.stk ++ [w]⟩ := by
    unfold arith
    rw [bind_eq (mathType_arr (s := ⟨m0, s.stk ++ [w]⟩) (.self id) h0 hk.2.2)]
    refine (bind_eq e1).trans ?_
    refine withVar_thr (s := ⟨m1, s.stk ++ [w]⟩) (w := .arr a) (mem1 := m3) ?_ rfl e4
    refine (bind_eq e2).trans ?_
    refine withVar_thr (s := ⟨m2, s.stk ++ [w] ++ [.arr a]⟩) (w := w) (mem1 := m2) ?_ rfl e3
    unfold arithArr
    refine (bind_eq (sizeV_number (s := ⟨m2, s.stk ++ [w] ++ [.arr a] ++ [w]⟩) hw2)).trans ?_
    rw [if_pos rfl, if_pos hF]
    unfold scaleArr
    refine (bind_eq (sizeV_deno (s := ⟨m2, s.stk ++ [w] ++ [.arr a] ++ [w]⟩) (v := .arr a) (.self id) ⟨rc, h2⟩)).trans ?_
    refine (bind_eq (atypeV_deno (s := ⟨m2, s.stk ++ [w] ++ [.arr a] ++ [w]⟩) (v := .arr a) (.self id) h2)).trans ?_
    rw [if_neg (by simp [hk.1, hk.2.1])]
    rfl
  obtain ⟨m5, e5, k5⟩ := arithTo_thr e0 hv ea i5
  exact ⟨_, e5, rfl, all_same ((((Oth.trans k0 k12).trans k3).trans k4).trans k5)⟩

/-! ## Cases -/

section

attribute [local instance] intEnv

/-- The operations on integers of any size. -/
def binF (op : ArithOp) (f : Int → Int → Int) : Bin Int := ⟨op, fun _ _ _ => true, fun _ => f⟩

/-- `{7: 1}`, and a variable that is the value. -/
def progA : List (Stmt Int) := [.decl .nil, .setKey 0 (.num .int 7) (.num .float 1), .decl (.key 0 (.num .int 7))]

theorem progA_mem : (final progA).mem[0]? = some (some ⟨.pair, 1, 2, .pair (.num .int 7) (.num .float 1) :: List.replicate 7 (.pair .nil .nil)⟩) := by decide +kernel

theorem progA_number : NumberAt (final progA).mem (.ref 0 0) .float 1 := .value progA_mem rfl (by simp [Scalar, Number]) rfl

/-- Hypotheses of `number_op`, for `m[7] += 4` and `m[7] += m[7]`, and of `number_new`, for `m[7] - 4`. -/
example : ∃ s' v', run (.eval (.arithTo (binF .add (· + ·)) 1 1 (.num .long 4) 1)) (final progA) = .ok () s' ∧ s'.stk[1]? = some v' ∧ NumberAt s'.mem v' .float 5 ∧
    OnlyElement (final progA) s' 0 0 := by
  obtain ⟨s', v', h1, h2, h3, h4⟩ := number_op (binF .add (· + ·)) (by simp [binF]) (reach_exec progA .start (by decide +kernel)) (n := 1) (v := .ref 0 0) (by decide +kernel) progA_number
    (.num (j := .long) (y := 4) (by simp [Scalar, Number])) ⟨by simp [Number], by simp [binF], rfl⟩ (d := 1) (le_refl _)
  exact ⟨s', v', h1, h2, h3, h4⟩

example : ∃ s' v', run (.eval (.arithTo (binF .add (· + ·)) 1 1 (.name 1) 1)) (final progA) = .ok () s' ∧ s'.stk[1]? = some v' ∧ NumberAt s'.mem v' .float 2 := by
  obtain ⟨s', v', h1, h2, h3, h4⟩ := number_op (binF .add (· + ·)) (by simp [binF]) (reach_exec progA .start (by decide +kernel)) (n := 1) (v := .ref 0 0) (by decide +kernel) progA_number
    (.name (m := 1) (by decide +kernel) progA_number) ⟨by simp [Number], by simp [binF], rfl⟩ (d := 1) (le_refl _)
  exact ⟨s', v', h1, h2, h3⟩

example : ∃ s', eval (.arith (binF .sub (· - ·)) 1 1 (.num .int 4)) (final progA) = .ok (.num .float (-3)) s' ∧ AllSame (final progA) s' := by
  obtain ⟨s', h1, -, h3⟩ := number_new (binF .sub (· - ·)) (reach_exec progA .start (by decide +kernel)) (n := 1) (v := .ref 0 0) (by decide +kernel) progA_number
    (.num (j := .int) (y := 4) (by simp [Scalar, Number])) ⟨by simp [Number], by simp [binF], rfl⟩ (d := 1) (le_refl _)
  exact ⟨s', h1, h3⟩

theorem progF_takes (op : ArithOp) (f : Int → Int → Int) : dataF.All (Takes (binF op f) .int 4) (· ≠ .cdouble) := by
  refine .map fun t ht => ?_
  rw [List.mem_singleton] at ht
  subst ht
  refine .list fun t ht => ?_
  simp only [List.mem_cons, List.not_mem_nil, or_false] at ht
  rcases ht with rfl | rfl
  · exact .nums (by decide) fun x _ => ⟨by simp [Number], by simp, rfl⟩
  · exact .num ⟨by simp [Number], by simp, rfl⟩

/-- Hypotheses of `nested_op_partial`: `{7: [[1, 2], 3.0]} -= 4`. -/
example : ∃ s' w, run (.eval (.arithTo (binF .sub (· - ·)) 4 2 (.num .int 4) 2)) (final progF) = .ok () s' ∧ s'.stk = (final progF).stk.set 2 w ∧
    IsTree s'.mem w (.map [.num .int 7] [.list [.nums .float [-3, -2], .num .double (-1)]]) [2, 1, 0] := by
  obtain ⟨s', w, h1, h0, h2, -⟩ := nested_op_partial (binF .sub (· - ·)) (by simp [binF]) (by simp [binF]) progF_reach (n := 2) (by decide +kernel) progF_tree (by decide)
    (.num (j := .int) (y := 4) (by simp [Scalar, Number])) (progF_takes .sub _) (d := 4) (by simp [dataF, Nested.depth])
  refine ⟨s', w, h1, h0, ?_⟩
  have hd : dataF.mapNums (result (binF .sub (· - ·)) .int 4) (fun _ _ z => z) = .map [.num .int 7] [.list [.nums .float [-3, -2], .num .double (-1)]] := by
    simp [dataF, Nested.mapNums, result, binF, Env.conv, intConv]
  rw [hd] at h2
  exact h2

/-- Two arrays and the first element of the first. -/
def progB : List (Stmt Int) := [.decl (.num .float 2), .push 0 (.num .float 3), .push 0 (.num .float 5), .decl (.num .float 7), .push 1 (.num .float 11), .decl (.elem 0 0)]

theorem progB_reach : Reach (final progB) := reach_exec progB .start (by decide +kernel)

theorem progB_mem : (final progB).mem[0]? = some (some ⟨.float, 3, 2, .raw (some 2) :: .raw (some 3) :: .raw (some 5) :: List.replicate 5 (.raw none)⟩) := by decide +kernel

theorem progB_0 : Contents (final progB) 0 .float [2, 3, 5] := contents_of (a := 0) [2, 3, 5] (by decide +kernel) progB_mem (by decide) rfl

theorem progB_1 : Contents (final progB) 1 .float [7, 11] :=
  contents_of (a := 1) (o := ⟨.float, 2, 1, .raw (some 7) :: .raw (some 11) :: List.replicate 6 (.raw none)⟩) [7, 11] (by decide +kernel) (by decide +kernel) (by decide) rfl

theorem progB_elem : Operand (final progB) (.name 2) .float 2 := .name (w := .ref 0 0) (by decide +kernel) (.elem progB_mem rfl (by simp [Scalar, Number]) rfl)

/-- Hypotheses of `scale_op`: `x *= x[0]`. -/
example : ∃ s', run (.eval (.arithTo (binF .mul (· * ·)) 1 0 (.name 2) 0)) (final progB) = .ok () s' ∧ Contents s' 0 .float [4, 6, 10] := by
  obtain ⟨s', a, h1, -, -, h2, -⟩ := scale_op (binF .mul (· * ·)) rfl progB_reach progB_0 (.inl rfl) progB_elem (fun _ _ => rfl) (d := 1) (le_refl _)
  exact ⟨s', h1, h2⟩

/-- Hypotheses of `vector_op_partial`: `x -= y` and `x += x`. -/
example : ∃ s', run (.eval (.arithTo (binF .sub (· - ·)) 1 0 (.name 1) 0)) (final progB) = .ok () s' ∧ Contents s' 0 .float [-5, -8, 5] := by
  obtain ⟨s', a, h1, -, -, h2, -⟩ := vector_op_partial (binF .sub (· - ·)) progB_reach progB_0 progB_1 ⟨.inr (.inl rfl), .inl rfl⟩ (by decide) (by decide) (by decide) (fun _ _ _ _ _ => rfl)
    (d := 1) (le_refl _)
  exact ⟨s', h1, h2⟩

example : ∃ s', run (.eval (.arithTo (binF .add (· + ·)) 1 0 (.name 0) 0)) (final progB) = .ok () s' ∧ Contents s' 0 .float [4, 6, 10] := by
  obtain ⟨s', a, h1, -, -, h2, -⟩ := vector_op_partial (binF .add (· + ·)) progB_reach progB_0 progB_0 ⟨.inl rfl, .inl rfl⟩ (by decide) (by decide) (by decide) (fun _ _ _ _ _ => rfl)
    (d := 1) (le_refl _)
  exact ⟨s', h1, h2⟩

/-- Hypotheses of `array_new_partial`: `x + 4` and `x * 4`. -/
example : ∃ s' o, eval (.arith (binF .add (· + ·)) 2 0 (.num .int 4)) (final progB) = .ok (.arr 2) s' ∧ s'.mem[2]? = some (some o) ∧ Elements o .float [6, 7, 9] := by
  obtain ⟨s', o, h1, -, h2, h3, -⟩ := array_new_partial (binF .add (· + ·)) (by simp [binF]) progB_reach progB_0 (by simp [Scalar, Number]) (by simp [binF]) (by simp [Fits])
    (.num (j := .int) (y := 4) (by simp [Scalar, Number])) (fun x _ => ⟨by simp [Number], by simp [binF], rfl⟩) (d := 2) (le_refl _)
  rw [show (final progB).mem.length = 2 by decide +kernel] at h1 h2
  exact ⟨s', o, h1, h2, h3⟩

example : ∃ s' o, eval (.arith (binF .mul (· * ·)) 2 0 (.num .int 4)) (final progB) = .ok (.arr 2) s' ∧ s'.mem[2]? = some (some o) ∧ Elements o .float [8, 12, 20] := by
  obtain ⟨s', o, h1, -, h2, h3, -⟩ := array_new_partial (binF .mul (· * ·)) (by simp [binF]) progB_reach progB_0 (by simp [Scalar, Number]) (fun _ => .inl rfl) (by simp [Fits])
    (.num (j := .int) (y := 4) (by simp [Scalar, Number])) (fun x _ => ⟨by simp [Number], by simp [binF], rfl⟩) (d := 2) (le_refl _)
  rw [show (final progB).mem.length = 2 by decide +kernel] at h1 h2
  exact ⟨s', o, h1, h2, h3⟩

/-- A map without the key that is asked for. -/
def progK : List (Stmt Int) := [.decl .nil, .setKey 0 (.num .int 7) (.num .float 1), .decl (.key 0 (.num .int 8))]

theorem progK_mem : (final progK).mem[0]? =
    some (some ⟨.pair, 2, 2, .pair (.num .int 7) (.num .float 1) :: .pair (.num .int 8) .nil :: List.replicate 6 (.pair .nil .nil)⟩) := by decide +kernel

/-- Hypotheses of `nil_throws`: `m[8] += 1` for a key that was not there; it is now. -/
example : ∃ s', run (.eval (.arithTo (binF .add (· + ·)) 1 1 (.num .int 1) 1)) (final progK) = .thrown (.error "var::atype(): Undefined") s' ∧ AllSame (final progK) s' := by
  obtain ⟨s', h1, -, h2⟩ := nil_throws (binF .add (· + ·)) (reach_exec progK .start (by decide +kernel)) (n := 1) (v := .ref 0 1) (by decide +kernel) (.value progK_mem rfl rfl)
    (.num (j := .int) (y := 1) (by simp [Scalar, Number])) (d := 1) (le_refl _)
  exact ⟨s', h1, h2⟩

/-- Hypotheses of `mul_throws`: `m *= 4` for the map in `progF`. -/
example : ∃ s', run (.eval (.arithTo (binF .mul (· * ·)) 4 2 (.num .int 4) 2)) (final progF) = .thrown (.error "Mul::scal: Unknown type") s' ∧ AllSame (final progF) s' := by
  obtain ⟨s', h1, -, h2⟩ := mul_throws (binF .mul (· * ·)) rfl progF_reach (n := 2) (a := 2) (by decide +kernel)
    (o := ⟨.pair, 1, 1, .pair (.num .int 7) (.arr 1) :: List.replicate 7 (.pair .nil .nil)⟩) (by decide +kernel) (by decide)
    (.num (j := .int) (y := 4) (by simp [Scalar, Number])) (d := 4) (by decide)
  exact ⟨s', h1, h2⟩

/-! ## What does not hold -/

/-- C158 in full, in place: any operation, and any number on the right. -/
def NestedOp : Prop := ∀ (F : Bin Int) (s : State Int) (n : Nat) (v : V Int) (t : Nested Int) (fp : List Addr) (e : Exp Int) (j : Kind) (y : Int) (d : Nat), Reach s → s.stk[n]? = some v →
  IsTree s.mem v t fp → fp.Nodup → Operand s e j y → t.All (Takes F j y) (· ≠ .cdouble) → t.depth ≤ d →
  ∃ s' w fp', run (.eval (.arithTo F d n e n)) s = .ok () s' ∧ s'.stk = s.stk.set n w ∧ IsTree s'.mem w (t.mapNums (result F j y) fun _ _ z => z) fp' ∧ Beside s s' fp

/-- It does not hold for multiplication: nested data cannot be multiplied by a number. -/
theorem mul_nested_throws : ¬ NestedOp ∧ ∃ s', run (.eval (.arithTo (binF .mul (· * ·)) 4 2 (.num .int 4) 2)) (final progF) = .thrown (.error "Mul::scal: Unknown type") s' := by
  obtain ⟨s', h1, -⟩ := mul_throws (binF .mul (· * ·)) rfl progF_reach (n := 2) (a := 2) (by decide +kernel)
    (o := ⟨.pair, 1, 1, .pair (.num .int 7) (.arr 1) :: List.replicate 7 (.pair .nil .nil)⟩) (by decide +kernel) (by decide)
    (.num (j := .int) (y := 4) (by simp [Scalar, Number])) (d := 4) (by decide)
  refine ⟨fun h => ?_, s', h1⟩
  obtain ⟨s2, w, fp', h2, -⟩ := h (binF .mul (· * ·)) (final progF) 2 _ _ _ (.num .int 4) .int 4 4 progF_reach (by decide +kernel) progF_tree (by decide)
    (.num (by simp [Scalar, Number])) (progF_takes .mul _) (by simp [dataF, Nested.depth])
  rw [h1] at h2
  cases h2

/-- It does not hold for an element of the array itself: `x += x[0]` changes `x[0]` first, and the others get the new one. -/
theorem own_element_changes : ¬ NestedOp ∧ ∃ s', run (.eval (.arithTo (binF .add (· + ·)) 2 0 (.name 2) 0)) (final progB) = .ok () s' ∧ Contents s' 0 .float [4, 7, 9] := by
  have h1 : run (.eval (.arithTo (binF .add (· + ·)) 2 0 (.name 2) 0)) (final progB) =
      .ok () (match run (.eval (.arithTo (binF .add (· + ·)) 2 0 (.name 2) 0)) (final progB) with | .ok _ s => s | _ => ⟨[], []⟩) := by decide +kernel
  have h3 : (match run (.eval (.arithTo (binF .add (· + ·)) 2 0 (.name 2) 0)) (final progB) with | .ok _ s => s | _ => ⟨[], []⟩ : State Int) =
      ⟨[some ⟨.float, 3, 2, .raw (some 4) :: .raw (some 7) :: .raw (some 9) :: List.replicate 5 (.raw none)⟩,
        some ⟨.float, 2, 1, .raw (some 7) :: .raw (some 11) :: List.replicate 6 (.raw none)⟩], [.arr 0, .arr 1, .ref 0 0]⟩ := by decide +kernel
  rw [h3] at h1
  refine ⟨fun h => ?_, _, h1, contents_of (a := 0) (o := ⟨.float, 3, 2, .raw (some 4) :: .raw (some 7) :: .raw (some 9) :: List.replicate 5 (.raw none)⟩) [4, 7, 9] rfl rfl (by decide) rfl⟩
  obtain ⟨s2, w, fp', h2, h4, h5, -⟩ := h (binF .add (· + ·)) (final progB) 0 (.arr 0) (.nums .float [2, 3, 5]) [0] (.name 2) .float 2 2 progB_reach (by decide +kernel)
    (.nums progB_mem (by simp [Number]) ⟨rfl, rfl, fun i y hy => by
      match i, hy with
      | 0, hy => cases hy; rfl
      | 1, hy => cases hy; rfl
      | 2, hy => cases hy; rfl⟩) (by decide) progB_elem (.nums (by decide) fun x _ => ⟨by simp [Number], by simp [binF], rfl⟩) (by simp [Nested.depth])
  rw [h1] at h2
  cases h2
  rw [show (final progB).stk = [.arr 0, .arr 1, .ref 0 0] by decide +kernel] at h4
  simp only [List.set_cons_zero, List.cons.injEq, and_true] at h4
  subst h4
  rw [Nested.mapNums] at h5
  cases h5 with
  | nums g1 g2 g3 =>
    cases g1
    have := g3.2.2 1 5 rfl
    simp at this

/-- C158 in full, for new values: `x op y` for any data `x` and a number `y`. -/
def NewOp : Prop := ∀ (F : Bin Int) (s : State Int) (n : Nat) (v : V Int) (t : Nested Int) (fp : List Addr) (e : Exp Int) (j : Kind) (y : Int) (d : Nat), Reach s → F.op ≠ .mul →
  s.stk[n]? = some v → IsTree s.mem v t fp → fp.Nodup → PlainOperand s e j y → t.All (Takes F j y) (· ≠ .cdouble) → t.depth ≤ d →
  ∃ s' w fp', eval (.arith F d n e) s = .ok w s' ∧ s'.stk = s.stk ∧ IsTree s'.mem w (t.mapNums (result F j y) fun _ _ z => z) fp' ∧ AllSame s s'

/-- `[5.0, 3.0]`, an array of vars. -/
def progV : List (Stmt Int) := [.decl (.num .float 1), .push 0 (.num .float 2), .decl .nil, .push 1 (.name 0), .push 1 (.num .double 3), .setElem 1 0 (.num .double 5)]

theorem progV_tree : IsTree (final progV).mem (.arr 1) (.list [.num .double 5, .num .double 3]) (1 :: [[], []].flatten) :=
  .list (o := ⟨.var, 2, 1, .var (.num .double 5) :: .var (.num .double 3) :: List.replicate 6 (.var .nil)⟩) (vs := [.num .double 5, .num .double 3]) (by decide +kernel) rfl rfl rfl rfl
    (fun i v hv => by
      match i, hv with
      | 0, hv => cases hv; rfl
      | 1, hv => cases hv; rfl)
    (fun i v t f hv ht hf => by
      match i, hv, ht, hf with
      | 0, hv, ht, hf => cases hv; cases ht; cases hf; exact .num (by simp [Scalar, Number])
      | 1, hv, ht, hf => cases hv; cases ht; cases hf; exact .num (by simp [Scalar, Number]))

/-- It does not hold: the vars of the new array are nil, and the numbers are written over the pointers in them. -/
theorem new_vars_corrupts : ¬ NewOp ∧ eval (.arith (binF .add (· + ·)) 2 1 (.num .int 4)) (final progV) = .ub .typePun := by
  have h1 : eval (.arith (binF .add (· + ·)) 2 1 (.num .int 4)) (final progV) = .ub .typePun := by decide +kernel
  refine ⟨fun h => ?_, h1⟩
  obtain ⟨s', w, fp', h2, -⟩ := h (binF .add (· + ·)) (final progV) 1 _ _ _ (.num .int 4) .int 4 2 (reach_exec progV .start (by decide +kernel)) (by simp [binF]) (by decide +kernel)
    progV_tree (by decide) (.num (by simp [Scalar, Number]))
    (.list fun t ht => by
      simp only [List.mem_cons, List.not_mem_nil, or_false] at ht
      rcases ht with rfl | rfl <;> exact .num ⟨by simp [Number], by simp, rfl⟩)
    (by simp [Nested.depth])
  rw [h1] at h2
  cases h2

/-- Dividing by an empty array throws, and the empty array is given an element. -/
theorem div_empty_grows : ∃ s', Contents (final [.decl (.num .float 1), .push 0 (.num .float 2), .decl (.num .float 3), .array 1, .eval (.pop 1)]) 1 .float ([] : List Int) ∧
    run (.eval (.arithTo (binF .div (· / ·)) 2 0 (.name 1) 0)) (final [.decl (.num .float 1), .push 0 (.num .float 2), .decl (.num .float 3), .array 1, .eval (.pop 1)]) =
      .thrown (.error "BinaryFunctor: not a vector operation") s' ∧ Contents s' 1 .float [3] := by
  refine ⟨(match run (.eval (.arithTo (binF .div (· / ·)) 2 0 (.name 1) 0)) (final [.decl (.num .float 1), .push 0 (.num .float 2), .decl (.num .float 3), .array 1, .eval (.pop 1)]) with
    | .thrown _ s => s | _ => ⟨[], []⟩), ?_, by decide +kernel, ?_⟩
  · exact ⟨1, ⟨.float, 0, 1, .raw (some 3) :: List.replicate 7 (.raw none)⟩, by decide +kernel, by decide +kernel, rfl, rfl, fun i x hx => by simp at hx⟩
  · exact contents_of (a := 1) (o := ⟨.float, 1, 1, .raw (some 3) :: List.replicate 7 (.raw none)⟩) [3] (by decide +kernel) (by decide +kernel) (by decide) rfl

end

end Libube.MemProps

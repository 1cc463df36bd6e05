import Verif.Lemmas.MemUnary
import Verif.Lemmas.MemString
import Verif.Lemmas.MemOwn
import Verif.Spec.MemArith

/-! # Arithmetic on variables, elements and nested arrays -/

namespace Libube.Mem

open MemSpec

variable {α β : Type}

/-- The number that is cast. -/
theorem cast_deno [Env α] {s : State α} {w : V α} {j : Kind} {y : α} (hd : Deno s.mem w (.num j y)) (k : Kind) : castV k w s = .ok (Env.conv j k y) s := by
  cases hd with
  | self _ => rfl
  | @var p i k' n cells c _ h1 h2 h3 h4 h5 =>
    have e1 : derefV (.ref p i) s = .ok (.num j y) s := by
      unfold derefV
      simp only
      rw [bind_eq (derefLoc_var h1 h2)]
      simp only
      rw [show (Loc.cell p i) = place false p i from rfl, bind_eq (read_place h1 h3 h4)]
      rfl
    simp [castV, e1, bind_run, M.bind, pure_run]
  | @num p i _ n cells _ h1 h2 h3 h4 =>
    obtain ⟨rc, g⟩ := h1
    simp [castV, derefV_ref_num (i := i) g h2, bind_run, M.bind, pure_run, obj_eq g, rawAt_run g h4]

theorem sizeV_number {s : State α} {w : V α} {j : Kind} {y : α} (hd : Deno s.mem w (.num j y)) : sizeV w s = .ok 1 s := by
  cases hd with
  | self _ => rfl
  | @var p i k' n cells c _ h1 h2 h3 h4 h5 =>
    have e1 : derefV (.ref p i) s = .ok (.num j y) s := by
      unfold derefV
      simp only
      rw [bind_eq (derefLoc_var h1 h2)]
      simp only
      rw [show (Loc.cell p i) = place false p i from rfl, bind_eq (read_place h1 h3 h4)]
      rfl
    simp [sizeV, e1, bind_run, M.bind, pure_run]
  | @num p i _ n cells _ h1 h2 h3 h4 =>
    obtain ⟨rc, g⟩ := h1
    simp [sizeV, derefV_ref_num (i := i) g h2, bind_run, M.bind, pure_run]

/-- Two numbers. -/
theorem arith_num [Env α] {F : Bin α} {d : Nat} {s : State α} {v w : V α} {k j : Kind} {x y : α} (hv : Deno s.mem v (.num k x)) (hk : k ≠ .cdouble) (hw : Deno s.mem w (.num j y))
    (ht : F.op.takes k = true) (ho : F.ok k x (Env.conv j k y) = true) (lo : Loc) : arith F (d + 1) v w lo s = F.store k lo (F.f k x (Env.conv j k y)) s := by
  obtain ⟨e1, e2⟩ := number_get hv hk
  unfold arith
  rw [bind_eq e1]
  simp only [ht, if_true]
  rw [bind_eq e2, bind_eq (cast_deno hw k)]
  unfold Bin.apply
  rw [if_pos ho]
  rfl

/-- Writing to an element of an array of numbers. -/
theorem setPtr_raw {s : State α} {own : List Addr} (hi : Inv s own) {m : Nat} {b : Addr} {i : Nat} (hm : s.stk[m]? = some (.ref b i)) {k : Kind} {n : Nat} {cells : List (Cell α)}
    (hb : Is s.mem b k n cells) (hk : IsNum k) {y : Option α} (hc : cells[i]? = some (.raw y)) (z : α) :
    ∃ mem', setPtr k (.slot m) 0 z s = .ok () ⟨mem', s.stk⟩ ∧ Inv ⟨mem', s.stk⟩ own ∧ Is mem' b k n (cells.set i (.raw (some z))) ∧ Oth (· = b) s.mem mem' := by
  obtain ⟨rc, g⟩ := hb
  have e : setPtr k (.slot m) 0 z s = .ok () (upd s b ⟨k, n, rc, cells.set i (.raw (some z))⟩) := by
    unfold setPtr
    rw [bind_eq (readSlot hm)]
    simp only
    rw [bind_eq (derefLoc_num (i := i) g hk)]
    simp only [setTyped]
    rw [bind_eq (obj_eq g)]
    simp only [if_true]
    exact setRaw_run g hc z
  have i1 := (setPtr_keep (lk := false) k (.slot m) 0 z).inv (own := own) (by simpa using hi) e
  simp only [List.nil_append] at i1
  refine ⟨_, e, i1, ⟨rc, upd_get g _⟩, by simp [upd], fun c o hc' _ ho => ?_⟩
  rw [List.getElem?_set_ne (fun h => hc' h.symm)] at ho
  exact ⟨o, ho, rfl, rfl, rfl⟩

/-- Writing to a number in an array of vars or a map. -/
theorem setPtr_var {s : State α} {own : List Addr} (hi : Inv s own) {m : Nat} {p j : Nat} (hm : s.stk[m]? = some (.ref p j)) {k : Kind} {n : Nat} {cells : List (Cell α)}
    (h : Is s.mem p k n cells) (hk : Holds k) {c : Cell α} (hc : cells[j]? = some c) {k' : Kind} {x : α} (hw : c.get false = some (.num k' x)) (z : α) :
    ∃ mem', setPtr k' (.slot m) 0 z s = .ok () ⟨mem', s.stk⟩ ∧ Inv ⟨mem', s.stk⟩ own ∧ Is mem' p k n (cells.set j (c.put false (.num k' z))) ∧ Oth (· = p) s.mem mem' := by
  obtain ⟨mem', e1, i1, h1, k1, -⟩ := write_place (own' := own) hi h hc hw (.num k' z) (fun b => rfl)
  refine ⟨mem', ?_, i1, h1, k1⟩
  unfold setPtr
  rw [bind_eq (readSlot hm)]
  simp only
  rw [bind_eq (derefLoc_var h hk)]
  simp only [setPlain]
  rw [show (Loc.cell p j) = place false p j from rfl, bind_eq (read_place h hc hw)]
  simp only [and_self, if_true]
  exact e1

/-- Writing to a number in a variable. -/
theorem setPtr_slot {s : State α} {own : List Addr} (hi : Inv s own) {m : Nat} {k : Kind} {x : α} (hm : s.stk[m]? = some (.num k x)) (z : α) :
    setPtr k (.slot m) 0 z s = .ok () ⟨s.mem, s.stk.set m (.num k z)⟩ ∧ Inv ⟨s.mem, s.stk.set m (.num k z)⟩ own := by
  obtain ⟨e1, i1⟩ := write_slot (own' := own) hi hm (.num k z) (fun b => rfl)
  refine ⟨?_, i1⟩
  unfold setPtr
  rw [bind_eq (readSlot hm)]
  simp only [setPlain]
  rw [bind_eq (readSlot hm)]
  simp only [and_self, if_true]
  exact e1

theorem takes_op {op : ArithOp} {k : Kind} (hn : Number k) (hp : op = .pow → k ≠ .char ∧ k ≠ .int ∧ k ≠ .long) : op.takes k = true := by
  cases k <;> simp_all [ArithOp.takes, Number]

/-- Writing the result to an element of an array of numbers. -/
theorem store_raw [Env α] {F : Bin α} (hc : F.op = .pow → ConvSame α) {s : State α} {own : List Addr} (hi : Inv s own) {m : Nat} {b : Addr} {i : Nat} (hm : s.stk[m]? = some (.ref b i))
    {k : Kind} {n : Nat} {cells : List (Cell α)} (hb : Is s.mem b k n cells) (hk : Scalar k) {y : Option α} (hy : cells[i]? = some (.raw y)) (z : α) :
    ∃ mem', F.store k (.slot m) z s = .ok () ⟨mem', s.stk⟩ ∧ Inv ⟨mem', s.stk⟩ own ∧ Is mem' b k n (cells.set i (.raw (some z))) ∧ Oth (· = b) s.mem mem' := by
  unfold Bin.store
  by_cases hp : F.op = .pow
  · rw [if_pos hp]
    obtain ⟨rc, g⟩ := hb
    have e3 := newNum_scalar hk z s
    have e4 := assignRef_num (j := k) (x := z) hm g hk.1 hy
    rw [hc hp k z hk.2] at e4
    have i1 := (assign_keep (lk := false) (.slot m) (.num k z)).inv (own := own) (by simpa [V.ptr] using hi) e4
    simp only [List.nil_append] at i1
    refine ⟨_, (bind_eq e3).trans e4, i1, ⟨rc, upd_get g _⟩, by simp [upd], fun c o hc' _ ho => ?_⟩
    rw [List.getElem?_set_ne (fun h => hc' h.symm)] at ho
    exact ⟨o, ho, rfl, rfl, rfl⟩
  · rw [if_neg hp]
    exact setPtr_raw hi hm hb hk.1 hy z

/-- Writing the result to an element of an array of vars or a value of a map. -/
theorem store_var [Env α] {F : Bin α} {s : State α} {own : List Addr} (hi : Inv s own) {m : Nat} {p j : Nat} (hm : s.stk[m]? = some (.ref p j)) {k : Kind} {n : Nat} {cells : List (Cell α)}
    (h : Is s.mem p k n cells) (hk : Holds k) {c : Cell α} (hc : cells[j]? = some c) {k' : Kind} {x : α} (hw : c.get false = some (.num k' x)) (hs : Scalar k') (z : α) :
    ∃ mem', F.store k' (.slot m) z s = .ok () ⟨mem', s.stk⟩ ∧ Inv ⟨mem', s.stk⟩ own ∧ Is mem' p k n (cells.set j (c.put false (.num k' z))) ∧ Oth (· = p) s.mem mem' := by
  unfold Bin.store
  by_cases hp : F.op = .pow
  · rw [if_pos hp]
    have e3 := newNum_scalar hs z s
    obtain ⟨m4, e4, i4, h4, k4⟩ := assignRef_tot (v := .num k' z) (own := own) (by simpa [V.ptr] using hi) hm h hk hc hw id (.self id) (by simp)
    exact ⟨m4, (bind_eq e3).trans e4, i4, h4, k4⟩
  · rw [if_neg hp]
    exact setPtr_var hi hm h hk hc hw z

/-- Writing the result to a variable. -/
theorem store_slot [Env α] {F : Bin α} {s : State α} {own : List Addr} (hi : Inv s own) {m : Nat} {k : Kind} {x : α} (hm : s.stk[m]? = some (.num k x)) (hs : Scalar k) (z : α) :
    ∃ mem', F.store k (.slot m) z s = .ok () ⟨mem', s.stk.set m (.num k z)⟩ ∧ Inv ⟨mem', s.stk.set m (.num k z)⟩ own ∧ Kept s.mem mem' := by
  unfold Bin.store
  by_cases hp : F.op = .pow
  · rw [if_pos hp]
    have e3 := newNum_scalar hs z s
    obtain ⟨m4, e4, i4, k4⟩ := assignSlot_tot (v := .num k z) (own := own) (by simpa [V.ptr] using hi) hm id (.self id)
    refine ⟨m4, (bind_eq e3).trans ?_, i4, k4⟩
    unfold assign
    exact (bind_eq (readSlot hm)).trans e4
  · rw [if_neg hp]
    obtain ⟨e1, i1⟩ := setPtr_slot hi hm z
    exact ⟨s.mem, e1, i1, Oth.refl _ _⟩

/-- The copies of the operands that `broadcast` has. -/
theorem arith_wrap [Env α] {F : Bin α} {d : Nat} {s : State α} {own : List Addr} (hi : Inv s own) {v w : V α} {a : Addr} (hd : Deno s.mem v (.arr a))
    (hv : ∀ b ∈ v.ptr.toList, b ∈ stkPtrs s.stk) (hw : ∀ b ∈ w.ptr.toList, b ∈ stkPtrs s.stk) {k : Kind} {n : Nat} {cells : List (Cell α)} (h : Is s.mem a k n cells) (hk : k ≠ .cdouble)
    {lo : Loc} {Q : List (Option (Obj α)) → Prop} (hq : ∀ {m m'}, Q m → Kept m m' → Inv ⟨m', s.stk⟩ own → Q m')
    (hb : ∀ m1, Kept s.mem m1 → Inv ⟨m1, s.stk ++ [v, w]⟩ own → ∃ m2,
      arithArr F (fun t lr => arith F d t w lr) v w (.slot s.stk.length) (.slot (s.stk.length + 1)) lo ⟨m1, s.stk ++ [v, w]⟩ = .ok () ⟨m2, s.stk ++ [v, w]⟩ ∧
      Inv ⟨m2, s.stk ++ [v, w]⟩ own ∧ Q m2) :
    ∃ mem', arith F (d + 1) v w lo s = .ok () ⟨mem', s.stk⟩ ∧ Inv ⟨mem', s.stk⟩ own ∧ Q mem' := by
  obtain ⟨m1, e1, i1, k1, l1⟩ := attach_tot hi (v := v) (fun b hb => hi.stk_live (hv b hb))
  have i1' : Inv ⟨m1, s.stk ++ [v]⟩ own := Inv.push (s := ⟨m1, s.stk⟩) i1
  obtain ⟨m1', e1', i2, k1', l1'⟩ := attach_tot i1' (v := w) (fun b hb => i1'.stk_live (up_stk _ (hw b hb)))
  have i2 : Inv ⟨m1', s.stk ++ [v] ++ [w]⟩ own := Inv.push (s := ⟨m1', s.stk ++ [v]⟩) i2
  have happ : s.stk ++ [v] ++ [w] = s.stk ++ [v, w] := by simp
  obtain ⟨m2, e2, i3, q2⟩ := hb m1' (Oth.trans k1 k1') (happ ▸ i2)
  rw [← happ] at e2 i3
  obtain ⟨m3, e3, i4, k3⟩ := withVar_tot (s := ⟨m1', s.stk ++ [v]⟩) (v := w) (w := w) (m1 := m2) (b := ())
    (f := fun lw => arithArr F (fun t lr => arith F d t w lr) v w (.slot s.stk.length) lw lo) (by simpa using e2) i3
  obtain ⟨m4, e4, i5, k4⟩ := withVar_tot (s := ⟨m1, s.stk⟩) (v := v) (w := v) (m1 := m3) (b := ())
    (f := fun lv => attachV w >>= fun _ => withVar w fun lw => arithArr F (fun t lr => arith F d t w lr) v w lv lw lo) ((bind_eq e1').trans e3) i4
  refine ⟨m4, ?_, i5, hq q2 (Oth.trans k3 k4) i5⟩
  unfold arith
  rw [bind_eq (mathType_arr hd h hk)]
  exact (bind_eq e1).trans e4

/-- Arithmetic with a number on the right. -/
theorem each_arith [Env α] (F : Bin α) (hF : F.op ≠ .mul) (hc : F.op = .pow → ConvSame α) (j : Kind) (y : α) :
    Each (fun d v lo => arith F d v (.num j y) lo) (Takes F j y) Eq (result F j y) (fun _ _ z => z) where
  same _ := rfl
  raw {_ _ _} hi {_ k x} hd hk hg {_} hC {_ _ _} hm {_ _} hb hk' {_} hy := by
    subst hC
    obtain ⟨m1, e1, i1, h1, k1⟩ := store_raw hc hi hm hb ⟨hk', hk⟩ hy (F.f k x (Env.conv j k y))
    exact ⟨m1, (arith_num hd hk (.self id) (takes_op hg.1 hg.2.1) hg.2.2 _).trans e1, i1, h1, k1⟩
  var {d s own} hi {p i k n cells} h hk {c} hc {k' x} hw hs {m} hm hg := by
    obtain ⟨m1, e1, i1, h1, k1⟩ := store_var (F := F) hi hm h hk hc hw hs (F.f k' x (Env.conv j k' y))
    exact ⟨m1, (arith_num (.var h hk hc hw id) hs.2 (.self id) (takes_op hg.1 hg.2.1) hg.2.2 _).trans e1, i1, h1, hs, k1⟩
  slot {d s own} hi {m k x} hv hs hg := by
    obtain ⟨m1, e1, i1, k1⟩ := store_slot (F := F) hi hv hs (F.f k x (Env.conv j k y))
    exact ⟨m1, (arith_num (v := .num k x) (.self id) hs.2 (.self id) (takes_op hg.1 hg.2.1) hg.2.2 _).trans e1, i1, hs, k1⟩
  arr {d s own} hi {v a} hd hv {k n cells} h hk {lo Q} hq hb := by
    refine arith_wrap (k := k) (n := n) (cells := cells) hi hd hv (by simp [V.ptr]) h hk hq fun m1 k1 i1 => ?_
    obtain ⟨m2, e2, i2, q2⟩ := hb m1 [v, .num j y] k1 i1
    have hn : sizeV v ⟨m1, s.stk ++ [v, .num j y]⟩ = .ok n ⟨m1, s.stk ++ [v, .num j y]⟩ := by
      have hd1 : Deno m1 v (.arr a) := hd.kept k1 (fun _ _ _ => id) fun b hb => i1.stk_live (up_stkL _ (hv b hb))
      exact sizeV_deno (s := ⟨m1, _⟩) hd1 (h.kept k1 id (hd1.live (s := ⟨m1, s.stk ++ [v, .num j y]⟩) i1 fun b hb => up_stkL _ (hv b hb)))
    refine ⟨m2, ?_, i2, q2⟩
    unfold arithArr
    refine (bind_eq (m := sizeV (.num j y)) (b := 1) rfl).trans ?_
    rw [if_pos rfl, if_neg hF]
    exact (bind_eq hn).trans e2

/-- In place, for a variable. -/
theorem each_place [Env α] {sc : Nat → V α → Loc → M α Unit} {P : Kind → α → Prop} {C : Kind → Kind → Prop} {φ : Kind → α → Kind × α} {cv : Kind → Kind → α → α} (E : Each sc P C φ cv)
    {s : State α} {own : List Addr} (hi : Inv s own) {n : Nat} {v : V α} (hv : s.stk[n]? = some v) {t : Nested α} {fp : List Addr} (h : IsTree s.mem v t fp) (hnd : fp.Nodup)
    (hall : t.All P (· ≠ .cdouble)) {d : Nat} (hd : t.depth ≤ d) :
    ∃ m2 w, sc d v (.slot n) s = .ok () ⟨m2, s.stk.set n w⟩ ∧ Inv ⟨m2, s.stk.set n w⟩ own ∧ IsTree m2 w (t.mapNums φ cv) fp ∧ Oth (· ∈ fp) s.mem m2 := by
  have hset : s.stk.set n v = s.stk := by
    apply List.ext_getElem?
    intro b
    by_cases hb : n = b
    · subst hb; rw [List.getElem?_set_self (List.getElem?_eq_some_iff.1 hv).1, hv]
    · rw [List.getElem?_set_ne hb]
  have hd0 : 0 < d := Nat.lt_of_lt_of_le (depth_pos t) hd
  obtain ⟨d, rfl⟩ : ∃ e, d = e + 1 := ⟨d - 1, by omega⟩
  have arr : ∀ a, v = .arr a → ∃ m2 w, sc (d + 1) v (.slot n) s = .ok () ⟨m2, s.stk.set n w⟩ ∧ Inv ⟨m2, s.stk.set n w⟩ own ∧ IsTree m2 w (t.mapNums φ cv) fp ∧ Oth (· ∈ fp) s.mem m2 := by
    rintro a rfl
    obtain ⟨m2, e2, i2, t2, k2⟩ := scalar_tree E (elemOk E d) hi (.self id) hv h (fun _ _ hb => by cases hb) hnd hall hd
    exact ⟨m2, .arr a, by rw [hset]; exact e2, by rw [hset]; exact i2, t2, k2⟩
  cases h with
  | @num k x hs =>
    cases hall with
    | num hg =>
      obtain ⟨m4, e4, i4, h4, k4⟩ := E.slot (d := d) hi hv hs hg
      exact ⟨m4, _, e4, i4, by rw [Nested.mapNums]; exact .num h4, k4.oth⟩
  | nums h1 h2 h3 => exact arr _ rfl
  | list h1 h2 h3 h4 h5 h6 h7 => exact arr _ rfl
  | map h1 h2 h3 h3' h4 h5 h6 h7 => exact arr _ rfl

/-! ## Statements -/

theorem numberAt_deno {mem : List (Option (Obj α))} {v : V α} {k : Kind} {x : α} (h : NumberAt mem v k x) : Deno mem v (.num k x) ∧ Scalar k := by
  cases h with
  | plain hs => exact ⟨.self id, hs⟩
  | @elem a i o _ _ h1 h2 h3 h4 => subst h2; exact ⟨.num ⟨o.rc, h1⟩ h3.1 h3.2 h4, h3⟩
  | @var a i o _ _ h1 h2 h3 h4 => exact ⟨.var ⟨o.rc, h1⟩ (.inl h2) h4 rfl id, h3⟩
  | @value a i o _ _ _ h1 h2 h3 h4 => exact ⟨.var ⟨o.rc, h1⟩ (.inr h2) h4 rfl id, h3⟩

/-- The right operand. -/
theorem operand_eval [Env α] {s : State α} {own : List Addr} (hi : Inv s own) {e : Exp α} {j : Kind} {y : α} (h : Operand s e j y) :
    ∃ m0 w, eval e s = .ok w ⟨m0, s.stk⟩ ∧ Inv ⟨m0, s.stk⟩ (w.ptr.toList ++ own) ∧ Kept s.mem m0 ∧ (∀ b, Live s.mem b → Live m0 b) ∧ Deno m0 w (.num j y) ∧
      ∀ b ∈ w.ptr.toList, b ∈ stkPtrs s.stk := by
  cases h with
  | num hs => exact ⟨s.mem, .num j y, newNum_scalar hs y s, by simpa [V.ptr] using hi, Oth.refl _ _, fun _ h => h, .self id, by simp [V.ptr]⟩
  | @name m w _ _ hm hw =>
    have hl : ∀ b ∈ w.ptr.toList, Live s.mem b := fun b hb => hi.stk_live (mem_stkPtrs hm hb)
    obtain ⟨m0, e0, i0, k0, l0⟩ := attach_tot hi hl
    refine ⟨m0, w, ?_, i0, k0, l0, (numberAt_deno hw).1.kept k0 (fun _ _ _ => id) fun b hb => l0 b (hl b hb), fun b hb => mem_stkPtrs hm hb⟩
    show (readLoc (.slot m) >>= fun v => copyV v) s = _
    rw [bind_eq (readSlot hm)]
    unfold copyV
    exact (bind_eq e0).trans rfl

theorem plain_eval [Env α] {s : State α} {e : Exp α} {j : Kind} {y : α} (h : PlainOperand s e j y) : eval e s = .ok (.num j y) s := by
  cases h with
  | num hs => exact newNum_scalar hs y s
  | @name m _ _ hm =>
    show (readLoc (.slot m) >>= fun v => copyV v) s = _
    rw [bind_eq (readSlot hm)]
    rfl

/-- An exception on the way. -/
theorem arithTo_thr [Env α] {F : Bin α} {d n : Nat} {e : Exp α} {s : State α} {own : List Addr} {v w : V α} {m0 m2 : List (Option (Obj α))} {ex : Exn}
    (he : eval e s = .ok w ⟨m0, s.stk⟩) (hv : s.stk[n]? = some v) (ha : arith F d v w (.slot n) ⟨m0, s.stk ++ [w]⟩ = .thrown ex ⟨m2, s.stk ++ [w]⟩) (hi : Inv ⟨m2, s.stk ++ [w]⟩ own) :
    ∃ m3, run (.eval (.arithTo F d n e n)) s = .thrown ex ⟨m3, s.stk⟩ ∧ Kept m2 m3 := by
  have hv1 : (s.stk ++ [w])[n]? = some v := by rw [List.getElem?_append_left (List.getElem?_eq_some_iff.1 hv).1]; exact hv
  obtain ⟨m3, e3, i3, k3⟩ := detach_tot (v := w) (own := own) (s := ⟨m2, s.stk⟩) (Inv.pop hi)
  refine ⟨m3, ?_, k3⟩
  have e4 : eval (.arithTo F d n e n) s = .thrown ex ⟨m3, s.stk⟩ := by
    refine (bind_eq he).trans ?_
    unfold arithTo
    refine withVar_thr (s := ⟨m0, s.stk⟩) (w := w) (mem1 := m2) ?_ rfl e3
    refine (bind_eq (readSlot (s := ⟨m0, s.stk ++ [w]⟩) hv1)).trans ?_
    exact bind_thr ha
  exact bind_thr e4

/-- What is around a compound assignment. -/
theorem arithTo_wrap [Env α] {F : Bin α} {d n : Nat} {e : Exp α} {s : State α} {own : List Addr} {v w : V α} {m0 m2 : List (Option (Obj α))} {stk2 : List (V α)}
    (he : eval e s = .ok w ⟨m0, s.stk⟩) (hv : s.stk[n]? = some v) (ha : arith F d v w (.slot n) ⟨m0, s.stk ++ [w]⟩ = .ok () ⟨m2, stk2 ++ [w]⟩) (hl : stk2.length = s.stk.length)
    (hi : Inv ⟨m2, stk2 ++ [w]⟩ own) :
    ∃ m3, run (.eval (.arithTo F d n e n)) s = .ok () ⟨m3, stk2⟩ ∧ Inv ⟨m3, stk2⟩ own ∧ Kept m2 m3 := by
  have hlt := (List.getElem?_eq_some_iff.1 hv).1
  have hv1 : (s.stk ++ [w])[n]? = some v := by rw [List.getElem?_append_left hlt]; exact hv
  have hlt2 : n < stk2.length := by omega
  have hv2 : (stk2 ++ [w])[n]? = some stk2[n] := by rw [List.getElem?_append_left hlt2, List.getElem?_eq_getElem hlt2]
  obtain ⟨m3, e3, i3, k3, -⟩ := attach_tot (s := ⟨m2, stk2 ++ [w]⟩) hi (v := stk2[n]) (fun b hb => hi.stk_live (mem_stkPtrs hv2 hb))
  obtain ⟨m4, e4, i4, k4⟩ := detach_tot (v := w) (own := stk2[n].ptr.toList ++ own) (s := ⟨m3, stk2⟩) (Inv.pop i3)
  obtain ⟨m5, e5, i5, k5⟩ := detach_tot (v := stk2[n]) (own := own) (s := ⟨m4, stk2⟩) i4
  refine ⟨m5, ?_, i5, (Oth.trans k3 k4).trans k5⟩
  have e6 : eval (.arithTo F d n e n) s = .ok stk2[n] ⟨m4, stk2⟩ := by
    refine (bind_eq he).trans ?_
    unfold arithTo
    refine withVar_run' (s := ⟨m0, s.stk⟩) (stk1 := stk2) (w := w) (mem1 := m3) ?_ hl e4
    refine (bind_eq (readSlot (s := ⟨m0, s.stk ++ [w]⟩) hv1)).trans ?_
    refine (bind_eq ha).trans ?_
    refine (bind_eq (readSlot (s := ⟨m2, stk2 ++ [w]⟩) hv2)).trans ?_
    unfold copyV
    exact (bind_eq e3).trans rfl
  exact (bind_eq e6).trans e5

end Libube.Mem

import Verif.Lemmas.MemCompare
import Verif.Props.MemPrintRead
import Verif.Props.Order

/-! # Comparing variables (C170) -/

namespace Libube.MemProps

open Mem MemSpec OrderSpec

variable {α : Type}

attribute [local instance] intEnv

/-- What a variable with a value is. -/
theorem value_deno [Env α] {N : Numbers α} {s : State α} (hr : Reach s) {m : Nat} {x : Val} (h : HasValue N s m x) :
    ∃ v w, readLoc (.slot m) s = .ok v s ∧ Alive v s.mem ∧ Deno s.mem v w ∧ HoldsVal N s.mem w x := by
  obtain ⟨own, hi⟩ := reach_inv hr
  obtain ⟨v, w, h1, h2, h3⟩ := h
  exact ⟨v, w, by simp [readLoc, h1], fun a ha => hi.stk_live (mem_stkPtrs h1 (by simp [ha])), standsFor_deno h2 h3.plain, h3⟩

theorem reach_counted [Env α] {s : State α} (hr : Reach s) : Counted s.mem := by
  obtain ⟨own, hi⟩ := reach_inv hr
  exact hi.live

/-- What the operators give, whatever the values: what they give for the values alone, and memory is as it was. -/
theorem compare_values [Env α] (N : Numbers α) {s : State α} (hr : Reach s) {m k : Nat} {x y : Val} (hx : HasValue N s m x) (hy : HasValue N s k y) (n : Nat) :
    differ N n m k s = liftO (neq n x y) s ∧ equal N n m k s = liftO (eq n x y) s ∧ less N n m k s = liftO (lt n x y) s := by
  obtain ⟨v, v', h1, -, h2, h3⟩ := value_deno hr hx
  obtain ⟨w, w', g1, g0, g2, g3⟩ := value_deno hr hy
  have hc := reach_counted hr
  refine ⟨?_, ?_, ?_⟩
  · unfold differ
    rw [bind_eq h1, bind_eq g1]
    exact callOp_lift (neqV_lift N n) hc h2 h3 g0 g2 g3
  · unfold equal
    rw [bind_eq h1, bind_eq g1]
    exact eqV_lift N n hc h2 h3 g0 g2 g3
  · unfold less
    rw [bind_eq h1, bind_eq g1]
    exact callOp_lift (ltV_lift N n) hc h2 h3 g0 g2 g3

theorem lifted {o : Outcome β} {s s' : State α} {b : β} : liftO o s = .ok b s' ↔ o = .ok b ∧ s' = s := by
  cases o <;> simp [liftO, eq_comm]

/-- C170: `==` and `!=` tell whether two variables have the same data and `<` whether a key comes before another, and nothing changes.
    Missing: nil and what contains it (`nil_equal_undefined`), arrays that contain themselves (`self_compare_endless`), complex numbers of double
    precision (`complex_compare_endless`); the order of arrays (`array_order_not_asymmetric`). -/
theorem compare_partial [Env α] (N : Numbers α) {s : State α} (hr : Reach s) {m k : Nat} {x y : Val} (hx : HasValue N s m x) (hy : HasValue N s k y) :
    (Plain x → Plain y → ∀ n, depth x < n → ∃ b, (b = true ↔ Same x y) ∧ equal N n m k s = .ok b s ∧ differ N n m k s = .ok (!b) s) ∧
    (OrderSpec.IsKey x → OrderSpec.IsKey y → ∀ n, 2 ≤ n → ∃ b, (b = true ↔ KeyLt x y) ∧ less N n m k s = .ok b s) := by
  constructor
  · intro px py n hn
    obtain ⟨h1, h2, -⟩ := compare_values N hr hx hy n
    obtain ⟨e1, e2⟩ := Libube.Order.eq_decides_same x y px py n hn
    have key : ∀ b, eq n x y = .ok b → equal N n m k s = .ok b s ∧ differ N n m k s = .ok (!b) s := by
      intro b hb
      refine ⟨by rw [h2, hb]; rfl, ?_⟩
      unfold eq at hb
      cases hn' : neq n x y with
      | ok c =>
        rw [hn'] at hb
        cases hb
        rw [h1, hn', Bool.not_not]
        rfl
      | _ => rw [hn'] at hb; cases hb
    by_cases hs : Same x y
    · exact ⟨true, by simp [hs], key _ (e1.2 hs)⟩
    · exact ⟨false, by simp [hs], key _ (e2.2 hs)⟩
  · intro px py n hn
    obtain ⟨-, -, h3⟩ := compare_values N hr hx hy n
    obtain ⟨e1, e2, -⟩ := Libube.Order.key_order_partial x y x px py px n hn
    by_cases hs : KeyLt x y
    · exact ⟨true, by simp [hs], by rw [h3, e1.2 hs]; rfl⟩
    · exact ⟨false, by simp [hs], by rw [h3, e2.2 hs]; rfl⟩

/-- Comparing nil with nil or an empty array, and ordering nil and any array, follow a null pointer. -/
theorem nil_equal_undefined [Env α] (N : Numbers α) {s : State α} (hr : Reach s) {m k : Nat} {y : Val} (hx : HasValue N s m .nil) (hy : HasValue N s k y)
    (n : Nat) : (y = .nil ∨ y = .chars [] → equal N (n + 1) m k s = .ub .nullDeref) ∧
      (kind y = 0 → less N (n + 1) m k s = .ub .nullDeref ∧ less N (n + 1) k m s = .ub .nullDeref) := by
  refine ⟨fun h => ?_, fun h => ?_⟩
  · rw [(compare_values N hr hx hy _).2.1]
    rcases h with rfl | rfl
    · rw [(Libube.Order.nil_eq_nil_undefined n).1]; rfl
    · rw [(Libube.Order.nil_eq_nil_undefined n).2.1]; rfl
  · rw [(compare_values N hr hx hy _).2.2, (compare_values N hr hy hx _).2.2, (Libube.Order.nil_order_undefined y h n).1, (Libube.Order.nil_order_undefined y h n).2]
    exact ⟨rfl, rfl⟩

/-- C170 in full: comparing variables that have values tells whether they are the same. -/
def CompareDecides : Prop := ∀ (s : State Int) (m k : Nat) (x y : Val), Reach s → HasValue intNumbers s m x → HasValue intNumbers s k y →
  ∃ n b, equal intNumbers n m k s = .ok b s ∧ (b = true ↔ Same x y)

/-! ## Comparisons that never end -/

theorem anyLoop_diverge {f : Nat → M α Bool} {s : State α} : ∀ {n i : Nat}, (∃ j, i ≤ j ∧ j < i + n ∧ f j s = .diverge ∧
    ∀ l, i ≤ l → l < j → f l s = .ok false s ∨ f l s = .diverge) → anyLoop f i n s = .diverge := by
  intro n
  induction n with
  | zero => rintro i ⟨j, h1, h2, -⟩; omega
  | succ n ih =>
    rintro i ⟨j, h1, h2, h3, h4⟩
    rw [anyLoop]
    by_cases hij : i = j
    · subst hij
      exact bind_diverge h3
    · rcases h4 i (le_refl i) (by omega) with h | h
      · rw [bind_eq h]
        exact ih ⟨j, by omega, by omega, h3, fun l h5 h6 => h4 l (by omega) h6⟩
      · exact bind_diverge h

/-- An array that contains itself, after numbers that equal themselves. -/
def ContainsSelf (N : Numbers α) (mem : List (Option (Obj α))) (a : Addr) : Prop :=
  ∃ o i, mem[a]? = some (some o) ∧ o.kind = .var ∧ i < o.size ∧ o.cells[i]? = some (.var (.arr a)) ∧
    ∀ j, j < i → ∃ k x y, o.cells[j]? = some (.var (.num k x)) ∧ scalarVal N k x = some y ∧ N.ne k x x = false

theorem bump_self {N : Numbers α} {mem : List (Option (Obj α))} {a : Addr} (v : V α) (h : ContainsSelf N mem a) : ContainsSelf N (bump v mem) a := by
  obtain ⟨o, i, h1, h2, h3, h4, h5⟩ := h
  obtain ⟨o', g1, g2, g3, g4⟩ := bump_obj v h1
  exact ⟨o', i, g1, by rw [g2]; exact h2, by rw [g3]; exact h3, by rw [g4]; exact h4, by rw [g4]; exact h5⟩

theorem neqV_self [Env α] (N : Numbers α) : ∀ (n : Nat) (mem : List (Option (Obj α))) (stk : List (V α)) (v w : V α) (a : Addr), Counted mem →
    ContainsSelf N mem a → Deno mem v (.arr a) → Deno mem w (.arr a) → neqV N n v w ⟨mem, stk⟩ = .diverge := by
  intro n
  induction n with
  | zero => intros; rfl
  | succ n ih =>
    intro mem stk v w a hc hs hd hd'
    have hs' := hs
    obtain ⟨o, i, h1, h2, h3, h4, h5⟩ := hs'
    have hI : Is mem a o.kind o.size o.cells := ⟨o.rc, h1⟩
    have hl : Alive (.arr a : V α) mem := fun b hb => by cases hb; exact ⟨o, h1⟩
    have at' : ∀ (mem' : List (Option (Obj α))) (stk' : List (V α)) (j : Nat) (u : V α), SameArrays mem mem' → j < o.size → o.cells[j]? = some (.var u) → Alive u mem' →
        heapAt a j ⟨mem', stk'⟩ = .ok u ⟨bump u mem', stk'⟩ := by
      intro mem' stk' j u hm hj hu ha
      obtain ⟨o', g1, g2, g3, g4⟩ := hm a o h1
      have hr : readLoc (.cell a j) ⟨mem', stk'⟩ = .ok u ⟨mem', stk'⟩ :=
        read_place (q := false) (s := ⟨mem', stk'⟩) (k := o'.kind) (n := o'.size) ⟨o'.rc, g1⟩ (by rw [g4]; exact hu) rfl
      unfold heapAt
      refine (bind_eq (s := ⟨mem', stk'⟩) (obj_eq g1)).trans ?_
      rw [if_pos (by rw [g3]; exact hj), g2, h2]
      exact (bind_eq hr).trans (copy_bump ha)
    have r1 : ∀ (m : List (Option (Obj α))) (u : V α), readLoc (.slot stk.length) ⟨m, stk ++ [u] ++ [u]⟩ = .ok u ⟨m, stk ++ [u] ++ [u]⟩ := by
      intro m u; simp [readLoc]
    have r2 : ∀ (m : List (Option (Obj α))) (u : V α), readLoc (.slot (stk ++ [u]).length) ⟨m, stk ++ [u] ++ [u]⟩ = .ok u ⟨m, stk ++ [u] ++ [u]⟩ := by
      intro m u; simp [readLoc]
    have same : SameArrays mem mem := fun b p hb => ⟨p, hb, rfl, rfl, rfl⟩
    unfold neqV
    rw [bind_eq (typeV_deno_arr (s := ⟨mem, stk⟩) hd), bind_eq (typeV_deno_arr (s := ⟨mem, stk⟩) hd'), if_neg (by simp),
      bind_eq (sizeV_deno (s := ⟨mem, stk⟩) hd hI), bind_eq (sizeV_deno (s := ⟨mem, stk⟩) hd' hI), if_neg (by simp)]
    simp only []
    rw [bind_eq (heapOf_deno (s := ⟨mem, stk⟩) hd)]
    simp only []
    rw [bind_eq (heapOf_deno (s := ⟨mem, stk⟩) hd')]
    refine (bind_eq (s := ⟨mem, stk⟩) (obj_eq h1)).trans ?_
    refine anyLoop_diverge ⟨i, by omega, by omega, ?_, fun l _ hli => ?_⟩
    · unfold pairwise
      rw [bind_eq (at' _ _ i _ same h3 h4 hl)]
      refine with_diverge ?_
      simp only []
      rw [bind_eq (at' _ _ i _ (bump_same _ _) h3 h4 (bump_alive _ hl))]
      refine with_diverge ?_
      rw [bind_eq (r1 _ _), bind_eq (r2 _ _)]
      exact ih (bump (.arr a) (bump (.arr a) mem)) _ (.arr a) (.arr a) a (bump_counted _ (bump_counted _ hc)) (bump_self _ (bump_self _ hs)) (.self (by simp [V.IsRef])) (.self (by simp [V.IsRef]))
    · obtain ⟨k, x, y, g1, g2, g3⟩ := h5 l hli
      have hn : Alive (.num k x : V α) mem := fun b hb => by cases hb
      have : pairwise (neqV N n) a (some a) l ⟨mem, stk⟩ = liftO (neq n y y) ⟨mem, stk⟩ := by
        unfold pairwise
        rw [bind_eq (at' _ _ l _ same (by omega) g1 hn)]
        refine with_lift hc hn ?_
        simp only []
        rw [bind_eq (at' _ _ l _ (bump_same _ _) (by omega) g1 (bump_alive _ hn))]
        refine with_lift (bump_counted _ hc) (bump_alive _ hn) ?_
        rw [bind_eq (r1 _ _), bind_eq (r2 _ _)]
        exact neqV_lift N n _ _ _ _ _ _ y y (bump_counted _ (bump_counted _ hc)) (.self (by simp [V.IsRef])) (.num g2) (.self (by simp [V.IsRef])) (.num g2)
      rw [this]
      cases n with
      | zero => exact .inr rfl
      | succ n => rw [neq_scalar g2 g2, g3]; exact .inl rfl

/-- Comparing an array that contains itself with itself never ends. -/
theorem self_compare_endless [Env α] (N : Numbers α) {s : State α} (hr : Reach s) {m k : Nat} {v w : V α} {a : Addr} (hm : s.stk[m]? = some v)
    (hk : s.stk[k]? = some w) (hv : StandsFor s.mem v (.arr a)) (hw : StandsFor s.mem w (.arr a)) (ha : ContainsSelf N s.mem a) (n : Nat) :
    equal N n m k s = .diverge ∧ differ N n m k s = .diverge := by
  obtain ⟨own, hi⟩ := reach_inv hr
  have hc := reach_counted hr
  have hl : Alive w s.mem := fun a ha => hi.stk_live (mem_stkPtrs hk (by simp [ha]))
  have d1 := standsFor_deno hv (by simp [V.IsRef])
  have d2 := standsFor_deno hw (by simp [V.IsRef])
  have r1 : readLoc (.slot m) s = .ok v s := by simp [readLoc, hm]
  have r2 : readLoc (.slot k) s = .ok w s := by simp [readLoc, hk]
  have call : ∀ (mem : List (Option (Obj α))) (stk : List (V α)), Counted mem → ContainsSelf N mem a → Deno mem v (.arr a) → Deno mem w (.arr a) → Alive w mem →
      callOp (neqV N n) v w ⟨mem, stk⟩ = .diverge := by
    intro mem stk hc hs d1 d2 hl
    unfold callOp
    rw [bind_eq (copy_bump hl)]
    refine with_diverge ?_
    have r : readLoc (.slot stk.length) ⟨bump w mem, stk ++ [w]⟩ = .ok w ⟨bump w mem, stk ++ [w]⟩ := by simp [readLoc]
    rw [bind_eq r]
    exact neqV_self N n _ _ v w a (bump_counted _ hc) (bump_self _ hs) (bump_deno _ d1) (bump_deno _ d2)
  constructor
  · unfold equal
    rw [bind_eq r1, bind_eq r2]
    unfold eqV
    rw [bind_eq (copy_bump (mem := s.mem) (stk := s.stk) hl)]
    refine with_diverge ?_
    have r : readLoc (.slot s.stk.length) ⟨bump w s.mem, s.stk ++ [w]⟩ = .ok w ⟨bump w s.mem, s.stk ++ [w]⟩ := by simp [readLoc]
    rw [bind_eq r]
    exact bind_diverge (call _ _ (bump_counted _ hc) (bump_self _ ha) (bump_deno _ d1) (bump_deno _ d2) (bump_alive _ hl))
  · unfold differ
    rw [bind_eq r1, bind_eq r2]
    exact call _ _ hc ha d1 d2 hl

/-- An array of complex numbers of double precision, not empty. -/
def Complexes (mem : List (Option (Obj α))) (a : Addr) (n : Nat) : Prop :=
  ∃ o x, mem[a]? = some (some o) ∧ o.kind = .cdouble ∧ o.size = n ∧ 0 < n ∧ o.cells[0]? = some (.raw (some x))

theorem complexes_append {mem : List (Option (Obj α))} {a n : Nat} (l : List (Option (Obj α))) (h : Complexes mem a n) : Complexes (mem ++ l) a n := by
  obtain ⟨o, x, h1, h2⟩ := h
  exact ⟨o, x, by rw [List.getElem?_append_left (List.getElem?_eq_some_iff.1 h1).1]; exact h1, h2⟩

theorem complexes_bump {mem : List (Option (Obj α))} {a n : Nat} (v : V α) (h : Complexes mem a n) : Complexes (bump v mem) a n := by
  obtain ⟨o, x, h1, h2, h3, h4, h5⟩ := h
  obtain ⟨o', g1, g2, g3, g4⟩ := bump_obj v h1
  exact ⟨o', x, g1, by rw [g2]; exact h2, by rw [g3]; exact h3, h4, by rw [g4]; exact h5⟩

/-- `Heap::at(0)` makes an array of one. -/
theorem complexes_at [Env α] {s : State α} {a n : Nat} (h : Complexes s.mem a n) :
    ∃ ob, heapAt a 0 s = .ok (.arr s.mem.length) ⟨s.mem ++ [some ob], s.stk⟩ ∧ Complexes (s.mem ++ [some ob]) s.mem.length 1 := by
  obtain ⟨o, x, h1, h2, h3, h4, h5⟩ := h
  obtain ⟨ob, g1, g2, -⟩ := boxed_run x s
  refine ⟨ob, ?_, ob, x, by simp, g2.kind, g2.size, by omega, g2.cell⟩
  unfold heapAt
  rw [bind_eq (obj_eq h1), if_pos (by omega), h2]
  simp only []
  rw [bind_eq (rawAt_run h1 h5)]
  exact g1

theorem neqV_complex [Env α] (N : Numbers α) : ∀ (n : Nat) (s : State α) (v w : V α) (a b c : Nat), Complexes s.mem a c → Complexes s.mem b c →
    Deno s.mem v (.arr a) → Deno s.mem w (.arr b) → neqV N n v w s = .diverge := by
  intro n
  induction n with
  | zero => intros; rfl
  | succ n ih =>
    intro s v w a b c ha hb hd hd'
    have ha' := ha
    have hb' := hb
    obtain ⟨o, x, h1, h2, h3, h4, h5⟩ := ha'
    obtain ⟨p, y, g1, g2, g3, g4, g5⟩ := hb'
    unfold neqV
    rw [bind_eq (typeV_deno_arr hd), bind_eq (typeV_deno_arr hd'), if_neg (by simp), bind_eq (sizeV_deno hd ⟨o.rc, h1⟩),
      bind_eq (sizeV_deno hd' ⟨p.rc, g1⟩), if_neg (by rw [h3, g3]; simp)]
    simp only []
    rw [bind_eq (heapOf_deno hd)]
    simp only []
    rw [bind_eq (heapOf_deno hd'), bind_eq (obj_eq h1)]
    refine anyLoop_diverge ⟨0, by omega, by omega, ?_, fun l _ hl => by omega⟩
    obtain ⟨oa, e1, c1⟩ := complexes_at ha
    unfold pairwise
    rw [bind_eq e1]
    refine with_diverge ?_
    simp only []
    obtain ⟨ob, e2, c2⟩ := complexes_at (s := ⟨s.mem ++ [some oa], s.stk ++ [.arr s.mem.length]⟩) (complexes_append _ hb)
    rw [bind_eq e2]
    refine with_diverge ?_
    have r1 : ∀ (m : List (Option (Obj α))) (u u' : V α), readLoc (.slot s.stk.length) ⟨m, s.stk ++ [u] ++ [u']⟩ = .ok u ⟨m, s.stk ++ [u] ++ [u']⟩ := by
      intro m u u'; simp [readLoc]
    have r2 : ∀ (m : List (Option (Obj α))) (u u' : V α), readLoc (.slot (s.stk ++ [u]).length) ⟨m, s.stk ++ [u] ++ [u']⟩ = .ok u' ⟨m, s.stk ++ [u] ++ [u']⟩ := by
      intro m u u'; simp [readLoc]
    rw [bind_eq (r1 _ _ _), bind_eq (r2 _ _ _)]
    exact ih _ _ _ _ _ 1 (complexes_append _ c1) c2 (.self (by simp [V.IsRef])) (.self (by simp [V.IsRef]))

/-- Comparing two arrays of equally many complex numbers of double precision never ends, unless they are empty. -/
theorem complex_compare_endless [Env α] (N : Numbers α) {s : State α} (hr : Reach s) {m k : Nat} {xs ys : List α} (hm : Contents s m .cdouble xs)
    (hk : Contents s k .cdouble ys) (hl : xs.length = ys.length) (h0 : xs ≠ []) (n : Nat) : equal N n m k s = .diverge ∧ differ N n m k s = .diverge := by
  obtain ⟨own, hi⟩ := reach_inv hr
  have hc := reach_counted hr
  have cx : ∀ {m : Nat} {xs : List α}, Contents s m .cdouble xs → xs ≠ [] → ∃ a, s.stk[m]? = some (.arr a) ∧ Complexes s.mem a xs.length := by
    rintro m xs ⟨a, o, h1, h2, h3⟩ h0
    have hp : 0 < xs.length := List.length_pos_iff.2 h0
    exact ⟨a, h1, o, xs[0], h2, h3.1, h3.2.1, hp, h3.2.2 0 _ (List.getElem?_eq_getElem hp)⟩
  obtain ⟨a, ha, ca⟩ := cx hm h0
  obtain ⟨b, hb, cb⟩ := cx hk (fun h => h0 (List.length_eq_zero_iff.1 (by rw [hl, h]; rfl)))
  rw [← hl] at cb
  have lb : Alive (.arr b : V α) s.mem := fun a ha => hi.stk_live (mem_stkPtrs hb (by simp [ha]))
  have r1 : readLoc (.slot m) s = .ok (.arr a) s := by simp [readLoc, ha]
  have r2 : readLoc (.slot k) s = .ok (.arr b) s := by simp [readLoc, hb]
  have call : ∀ (mem : List (Option (Obj α))) (stk : List (V α)), Complexes mem a xs.length → Complexes mem b xs.length → Alive (.arr b : V α) mem →
      callOp (neqV N n) (.arr a) (.arr b) ⟨mem, stk⟩ = .diverge := by
    intro mem stk ca cb hl
    unfold callOp
    rw [bind_eq (copy_bump hl)]
    refine with_diverge ?_
    have r : ∀ (mem : List (Option (Obj α))) (w : V α), readLoc (.slot stk.length) ⟨mem, stk ++ [w]⟩ = .ok w ⟨mem, stk ++ [w]⟩ := by
      intro mem w; simp [readLoc]
    rw [bind_eq (r _ _)]
    exact neqV_complex N n ⟨bump (.arr b) mem, _⟩ _ _ a b xs.length (complexes_bump (.arr b) ca) (complexes_bump (.arr b) cb) (.self (by simp [V.IsRef])) (.self (by simp [V.IsRef]))
  constructor
  · unfold equal
    rw [bind_eq r1, bind_eq r2]
    unfold eqV
    rw [bind_eq (copy_bump (mem := s.mem) (stk := s.stk) lb)]
    refine with_diverge ?_
    have r : ∀ (mem : List (Option (Obj α))) (w : V α), readLoc (.slot s.stk.length) ⟨mem, s.stk ++ [w]⟩ = .ok w ⟨mem, s.stk ++ [w]⟩ := by
      intro mem w; simp [readLoc]
    rw [bind_eq (r _ _)]
    exact bind_diverge (call (bump (.arr b) s.mem) _ (complexes_bump _ ca) (complexes_bump _ cb) (bump_alive _ lb))
  · unfold differ
    rw [bind_eq r1, bind_eq r2]
    exact call s.mem s.stk ca cb lb

attribute [local instance] cEnv in
example : ∃ s, Reach s ∧ Contents s 0 .cdouble [((1, 1) : Int × Int), (2, 2), (3, 3)] := ⟨cfinal progZ, progZ_reach, progZ_contents⟩

/-! ## Cases -/

/-- `x[0] = 1; x[1] = "A"; y = x.copy(); z = x[1]; w = y[1]; u = nil;` -/
def progCompare : List (Stmt Int) :=
  [.decl .nil, .setElem 0 0 (.num .int 1), .setElem 0 1 (.str [65]), .decl .nil, .assign 1 (.copy 0), .decl (.elem 0 1), .decl (.str [66]), .decl .nil]

theorem progCompare_reach : Reach (final progCompare) := reach_exec progCompare .start (by decide +kernel)

/-- The strings of `progCompare`. -/
theorem progCompare_string (a : Addr) (c : Int) (h : (match (final progCompare).mem[a]? with
    | some (some o) => decide (o.kind = .char ∧ o.size = 1 ∧ o.cells.take 2 = [.raw (some c), .raw (some 0)]) | _ => false) = true) :
    HoldsVal intNumbers (final progCompare).mem (.arr a) (.chars [intNumbers.char c]) := by
  obtain ⟨o, ho, hk, hn, hc⟩ := obj_with (fun o => o.kind = .char ∧ o.size = 1 ∧ o.cells.take 2 = [.raw (some c), .raw (some 0)]) _ h
  have h0 : o.cells[0]? = some (.raw (some c)) := by
    have : (o.cells.take 2)[0]? = some (.raw (some c)) := by rw [hc]; rfl
    simpa [List.getElem?_take] using this
  have h1 : o.cells[1]? = some (.raw (some 0)) := by
    have : (o.cells.take 2)[1]? = some (.raw (some 0)) := by rw [hc]; rfl
    simpa [List.getElem?_take] using this
  refine .str (xs := [c]) (z := 0) ho ⟨hk, hn, fun i x hi => ?_⟩ h1 (by decide)
  match i with
  | 0 => cases hi; exact h0
  | i + 1 => simp at hi

theorem progCompare_list (a : Addr) (h : (match (final progCompare).mem[a]? with
    | some (some o) => decide (o.kind = .var ∧ o.size = 2 ∧ o.cells.take 2 = [.var (.num .int 1), .var (.arr 1)]) | _ => false) = true) :
    HoldsVal intNumbers (final progCompare).mem (.arr a) (.arr [.int 1, .chars [65]]) := by
  obtain ⟨o, ho, hk, hn, hc⟩ := obj_with (fun o => o.kind = .var ∧ o.size = 2 ∧ o.cells.take 2 = [.var (.num .int 1), .var (.arr 1)]) _ h
  have h0 : o.cells[0]? = some (.var (.num .int 1)) := by
    have : (o.cells.take 2)[0]? = some (.var (.num .int 1)) := by rw [hc]; rfl
    simpa [List.getElem?_take] using this
  have h1 : o.cells[1]? = some (.var (.arr 1)) := by
    have : (o.cells.take 2)[1]? = some (.var (.arr 1)) := by rw [hc]; rfl
    simpa [List.getElem?_take] using this
  refine .list (v := fun i => if i = 0 then .num .int 1 else .arr 1) ho hk hn (fun i hi => ?_) fun i y hy => ?_
  · match i with
    | 0 => exact h0
    | 1 => exact h1
    | i + 2 => simp at hi
  · match i with
    | 0 => cases hy; exact .num rfl
    | 1 => cases hy; exact progCompare_string 1 65 (by decide +kernel)
    | i + 2 => simp at hy

/-- `x` and its copy, which are arrays of vars. -/
theorem progCompare_arrays : HasValue intNumbers (final progCompare) 0 (.arr [.int 1, .chars [65]]) ∧ HasValue intNumbers (final progCompare) 1 (.arr [.int 1, .chars [65]]) :=
  ⟨⟨.arr 0, .arr 0, by decide +kernel, .inl ⟨rfl, by simp⟩, progCompare_list 0 (by decide +kernel)⟩,
    ⟨.arr 2, .arr 2, by decide +kernel, .inl ⟨rfl, by simp⟩, progCompare_list 2 (by decide +kernel)⟩⟩

/-- A reference to an element, and a string. -/
theorem progCompare_keys : HasValue intNumbers (final progCompare) 2 (.chars [65]) ∧ HasValue intNumbers (final progCompare) 3 (.chars [66]) := by
  refine ⟨⟨.ref 0 1, .arr 1, by decide +kernel, .inr ?_, progCompare_string 1 65 (by decide +kernel)⟩,
    ⟨.arr 3, .arr 3, by decide +kernel, .inl ⟨rfl, by simp⟩, progCompare_string 3 66 (by decide +kernel)⟩⟩
  obtain ⟨o, ho, hk, hc⟩ := obj_with (fun o => o.kind = .var ∧ o.cells[1]? = some (.var (.arr 1))) (final progCompare).mem[0]? (by decide +kernel)
  exact ⟨0, 1, o, rfl, ho, .inl ⟨hk, hc⟩⟩

theorem progCompare_nil : HasValue intNumbers (final progCompare) 4 .nil :=
  ⟨.nil, .nil, by decide +kernel, .inl ⟨rfl, by simp⟩, .nil⟩

/-- The hypotheses of `compare_partial` and `nil_equal_undefined` are met. -/
example : ∃ x y z w, Reach (final progCompare) ∧ HasValue intNumbers (final progCompare) 0 x ∧ HasValue intNumbers (final progCompare) 1 y ∧ Plain x ∧ Plain y ∧
    Same x y ∧ depth x < 3 ∧ HasValue intNumbers (final progCompare) 2 z ∧ HasValue intNumbers (final progCompare) 3 w ∧ OrderSpec.IsKey z ∧ OrderSpec.IsKey w ∧ KeyLt z w ∧
    HasValue intNumbers (final progCompare) 4 .nil ∧ kind z = 0 := by
  have hp : Plain (.arr [.int 1, .chars [65]]) := by
    refine .array _ _ rfl (by simp) fun x hx => ?_
    simp at hx
    rcases hx with rfl | rfl
    · exact .int _
    · refine .array _ _ rfl (by simp) fun x hx => ?_
      simp at hx
      subst hx
      exact .char _
  have hs : Same (.arr [.int 1, .chars [65]]) (.arr [.int 1, .chars [65]]) := by
    refine .array _ _ _ _ rfl rfl rfl fun i h h' => ?_
    match i with
    | 0 => exact .int _
    | 1 =>
      refine .array _ _ _ _ rfl rfl rfl fun i h h' => ?_
      match i with
      | 0 => exact .char _
      | i + 1 => simp at h
    | i + 2 => simp at h
  exact ⟨_, _, _, _, progCompare_reach, progCompare_arrays.1, progCompare_arrays.2, hp, hp, hs, by simp [depth], progCompare_keys.1, progCompare_keys.2,
    by simp [OrderSpec.IsKey], by simp [OrderSpec.IsKey], .rel (by decide), progCompare_nil, rfl⟩

/-- Comparing does not always tell: nil is a value, too. -/
theorem compare_undecided : ¬ CompareDecides := by
  intro h
  obtain ⟨n, b, h1, -⟩ := h (final progCompare) 4 4 .nil .nil progCompare_reach progCompare_nil progCompare_nil
  cases n with
  | zero =>
    rw [(compare_values intNumbers progCompare_reach progCompare_nil progCompare_nil 0).2.1] at h1
    cases h1
  | succ n =>
    rw [(nil_equal_undefined intNumbers progCompare_reach progCompare_nil progCompare_nil n).1 (.inl rfl)] at h1
    cases h1

/-- `x[0] = 1; x[1] = x;` -/
example : Reach (final progLoop) ∧ (final progLoop).stk[0]? = some (.arr 0) ∧ StandsFor (final progLoop).mem (.arr 0) (.arr 0) ∧
    ContainsSelf intNumbers (final progLoop).mem 0 := by
  refine ⟨reach_exec progLoop .start (by decide +kernel), by decide +kernel, .inl ⟨rfl, by simp⟩, ?_⟩
  obtain ⟨o, ho, hk, hn, h0, h1⟩ := obj_with (fun o => o.kind = .var ∧ o.size = 2 ∧ o.cells[0]? = some (.var (.num .int 1)) ∧ o.cells[1]? = some (.var (.arr 0)))
    (final progLoop).mem[0]? (by decide +kernel)
  refine ⟨o, 1, ho, hk, by omega, h1, fun j hj => ?_⟩
  obtain rfl : j = 0 := by omega
  exact ⟨.int, 1, .int 1, h0, rfl, by decide⟩

#print axioms compare_values
#print axioms compare_partial
#print axioms nil_equal_undefined
#print axioms compare_undecided
#print axioms self_compare_endless
#print axioms complex_compare_endless

end Libube.MemProps

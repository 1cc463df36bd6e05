import Verif.Spec.MemCompare
import Verif.Lemmas.MemPrint

/-! # Comparing in memory gives what comparing values does (C170) -/

namespace Libube.Mem

open MemSpec CString

variable {α : Type}

theorem liftO_bind {m : M α β} {f : β → M α γ} {o : Outcome β} {g : β → Outcome γ} {s1 s : State α} (hm : m s1 = liftO o s)
    (hf : ∀ b, o = .ok b → f b s = liftO (g b) s) : (m >>= f) s1 = liftO (o >>= g) s := by
  simp only [bind_run, M.bind, hm]
  cases o with
  | ok b => exact hf b rfl
  | _ => rfl

/-- A temporary that the call leaves alone. -/
theorem with_lift {mem : List (Option (Obj α))} {stk : List (V α)} {v : V α} {f : Loc → M α β} {o : Outcome β} (hc : Counted mem) (h : Alive v mem)
    (hf : f (.slot stk.length) ⟨bump v mem, stk ++ [v]⟩ = liftO o ⟨bump v mem, stk ++ [v]⟩) : withVar v f ⟨bump v mem, stk⟩ = liftO o ⟨mem, stk⟩ := by
  cases o with
  | ok b => exact with_bump hc h hf
  | thrown e =>
    have hd := detach_bump (stk := stk) hc h
    have hf : f (.slot stk.length) ⟨bump v mem, stk ++ [v]⟩ = .thrown e ⟨bump v mem, stk ++ [v]⟩ := hf
    unfold withVar
    simp only [hf]
    simp [hd, liftO]
  | ub u =>
    have hf : f (.slot stk.length) ⟨bump v mem, stk ++ [v]⟩ = .ub u := hf
    unfold withVar
    simp only [hf]
    rfl
  | abort =>
    have hf : f (.slot stk.length) ⟨bump v mem, stk ++ [v]⟩ = .abort := hf
    unfold withVar
    simp only [hf]
    rfl
  | diverge =>
    have hf : f (.slot stk.length) ⟨bump v mem, stk ++ [v]⟩ = .diverge := hf
    unfold withVar
    simp only [hf]
    rfl

theorem same_holds {N : Numbers α} {mem mem' : List (Option (Obj α))} {w : V α} {y : Val} (hs : SameArrays mem mem') (h : HoldsVal N mem w y) : HoldsVal N mem' w y := by
  induction h with
  | nil => exact .nil
  | num h => exact .num h
  | str h1 h2 h3 h4 =>
    obtain ⟨o', g1, g2, g3, g4⟩ := hs _ _ h1
    exact .str g1 (by unfold Elements; rw [g2, g3, g4]; exact h2) (by rw [g4]; exact h3) h4
  | nums h1 h2 h3 =>
    obtain ⟨o', g1, g2, g3, g4⟩ := hs _ _ h1
    exact .nums g1 (by unfold Elements; rw [g2, g3, g4]; exact h2) h3
  | list h1 h2 h3 h4 _ ih =>
    obtain ⟨o', g1, g2, g3, g4⟩ := hs _ _ h1
    exact .list g1 (by rw [g2]; exact h2) (by rw [g3]; exact h3) (by rw [g4]; exact h4) ih
  | map h1 h2 h3 h4 _ _ ih1 ih2 =>
    obtain ⟨o', g1, g2, g3, g4⟩ := hs _ _ h1
    exact .map g1 (by rw [g2]; exact h2) (by rw [g3]; exact h3) (by rw [g4]; exact h4) ih1 ih2

theorem bump_holds {N : Numbers α} {mem : List (Option (Obj α))} {w : V α} {y : Val} (v : V α) (h : HoldsVal N mem w y) : HoldsVal N (bump v mem) w y :=
  same_holds (bump_same v mem) h

theorem _root_.Libube.MemSpec.HoldsVal.alive {N : Numbers α} {mem : List (Option (Obj α))} {v : V α} {y : Val} (h : HoldsVal N mem v y) : Alive v mem := by
  intro a ha
  cases h with
  | nil => cases ha
  | num _ => cases ha
  | str h | nums h | list h | map h => cases ha; exact ⟨_, h⟩

theorem _root_.Libube.MemSpec.HoldsVal.plain {N : Numbers α} {mem : List (Option (Obj α))} {v : V α} {y : Val} (h : HoldsVal N mem v y) : ¬ v.IsRef := by
  cases h <;> simp [V.IsRef]

/-! ## Values -/

theorem scalar_type {N : Numbers α} {k : Kind} {x : α} {y : Val} (h : scalarVal N k x = some y) : y.type = typeNumber (some k) ∧ y.type ≠ 0 ∧ y.hasHeap = false ∧ k ≠ .cdouble ∧ k ≠ .var ∧ k ≠ .pair := by
  cases k <;> simp [scalarVal] at h <;> subst h <;> simp [Val.type, typeNumber, Val.hasHeap]

theorem neq_scalar {N : Numbers α} {k : Kind} {x x' : α} {y y' : Val} (h : scalarVal N k x = some y) (h' : scalarVal N k x' = some y') (n : Nat) :
    Libube.neq (n + 1) y y' = .ok (N.ne k x x') := by
  cases k <;> simp [scalarVal] at h h' <;> subst h <;> subst h' <;> simp [Libube.neq, Val.type, Val.size, Numbers.ne]

theorem lt_scalar {N : Numbers α} {k : Kind} {x x' : α} {y y' : Val} (h : scalarVal N k x = some y) (h' : scalarVal N k x' = some y') (n : Nat) :
    Libube.lt (n + 1) y y' = .ok (N.lt k x x') := by
  cases k <;> simp [scalarVal] at h h' <;> subst h <;> subst h' <;> simp [Libube.lt, Val.type, Numbers.lt]

theorem array_elems {N : Numbers α} {k : Kind} {xs : List α} {y : Val} (h : arrayVal N k xs = some y) :
    y.type = 0 ∧ y.hasHeap = true ∧ (∀ s, y ≠ .chars s) ∧ y.elems.length = xs.length ∧ k ≠ .cdouble ∧ k ≠ .var ∧ k ≠ .pair ∧ k ≠ .char ∧
      ∀ (i : Nat) (z : Val), y.elems[i]? = some z → ∃ x, xs[i]? = some x ∧ scalarVal N k x = some z := by
  cases k <;> simp [arrayVal] at h <;> subst h <;> simp [Val.type, Val.hasHeap, Val.elems, scalarVal]
  all_goals
    intro i z x hx hz
    exact ⟨x, hx, hz⟩

theorem neq_other {x y : Val} (h : x.type ≠ y.type ∨ x.size ≠ y.size) (n : Nat) : Libube.neq (n + 1) x y = .ok true := by
  unfold Libube.neq
  rcases h with h | h
  · rw [if_pos h]
  · split
    · rfl
    · rfl

theorem neq_arrays {x y : Val} (hx : x.type = 0) (hy : y.type = 0) (hs : x.size = y.size) (n : Nat) :
    Libube.neq (n + 1) x y = if !x.hasHeap then .ub .nullDeref else Libube.neqLoop (Libube.neq n) x.elems y.elems := by
  unfold Libube.neq
  rw [if_neg (by simp [hx, hy]), if_neg (by simp [hs])]
  cases x <;> simp [Val.type] at hx <;> rfl

theorem lt_arrays {x y : Val} (hx : x.type = 0) (hy : y.type = 0) (n : Nat) :
    Libube.lt (n + 1) x y = if !x.hasHeap || !y.hasHeap then .ub .nullDeref else
      match x, y with
      | .chars s, .chars t => .ok (decide (strcmp (cstr s) (cstr t) < 0))
      | a, b => Libube.ltLoop (Libube.lt n) a.elems b.elems := by
  unfold Libube.lt
  rw [if_neg (by simp [hx, hy])]
  cases x <;> simp [Val.type] at hx <;> cases y <;> simp [Val.type] at hy <;> rfl

/-! ## Arrays and their elements -/

/-- An array whose elements are those of the value. -/
structure ArrayOf [Env α] (N : Numbers α) (mem : List (Option (Obj α))) (a : Addr) (y : Val) (o : Obj α) : Prop where
  obj : mem[a]? = some (some o)
  size : o.size = y.elems.length
  type : y.type = 0
  heap : y.hasHeap = true
  elem : ∀ (i : Nat) (z : Val), y.elems[i]? = some z → ∃ u, HoldsVal N mem u z ∧ ∀ stk, heapAt a i ⟨mem, stk⟩ = .ok u ⟨bump u mem, stk⟩

theorem nil_size : Val.nil.size = 0 := rfl

theorem ArrayOf.vsize [Env α] {N : Numbers α} {mem : List (Option (Obj α))} {a : Addr} {y : Val} {o : Obj α} (h : ArrayOf N mem a y o) : y.size = o.size := by
  unfold Val.size
  rw [if_pos h.type, h.size]

theorem holds_array [Env α] {N : Numbers α} {mem : List (Option (Obj α))} {a : Addr} {y : Val} (h : HoldsVal N mem (.arr a) y) : ∃ o, ArrayOf N mem a y o := by
  cases h with
  | @nums _ o k xs _ h1 h2 h3 =>
    obtain ⟨g1, g2, -, g4, g5, g6, g7, -, g9⟩ := array_elems h3
    refine ⟨o, h1, by rw [h2.2.1, g4], g1, g2, fun i z hz => ?_⟩
    obtain ⟨x, hx, hs⟩ := g9 i z hz
    refine ⟨.num k x, .num hs, fun stk => ?_⟩
    have hi : i < o.size := by rw [h2.2.1]; exact (List.getElem?_eq_some_iff.1 hx).1
    have hr : rawAt a i ⟨mem, stk⟩ = .ok x ⟨mem, stk⟩ := rawAt_run (s := ⟨mem, stk⟩) h1 (h2.2.2 i x hx)
    unfold heapAt
    refine (bind_eq (s := ⟨mem, stk⟩) (obj_eq h1)).trans ?_
    rw [if_pos hi, h2.1]
    cases k <;> simp at g5 g6 g7 <;> simp [bind_eq hr, boxed, pure_run, bump, V.ptr]
  | @str _ o xs z h1 h2 h3 h4 =>
    refine ⟨o, h1, by simp [h2.2.1, Val.elems], rfl, rfl, fun i y hy => ?_⟩
    simp only [Val.elems, List.map_map, List.getElem?_map, Option.map_eq_some_iff] at hy
    obtain ⟨x, hx, rfl⟩ := hy
    refine ⟨.num .char x, .num rfl, fun stk => ?_⟩
    have hi : i < o.size := by rw [h2.2.1]; exact (List.getElem?_eq_some_iff.1 hx).1
    have hr : rawAt a i ⟨mem, stk⟩ = .ok x ⟨mem, stk⟩ := rawAt_run (s := ⟨mem, stk⟩) h1 (h2.2.2 i x hx)
    unfold heapAt
    refine (bind_eq (s := ⟨mem, stk⟩) (obj_eq h1)).trans ?_
    rw [if_pos hi, h2.1]
    simp [bind_eq hr, boxed, pure_run, bump, V.ptr]
  | @list _ o ys v h1 h2 h3 h4 h5 =>
    refine ⟨o, h1, h3, rfl, rfl, fun i y hy => ?_⟩
    have hy : ys[i]? = some y := hy
    have hi : i < ys.length := (List.getElem?_eq_some_iff.1 hy).1
    have hh := h5 i y hy
    refine ⟨v i, hh, fun stk => ?_⟩
    have hr : readLoc (.cell a i) ⟨mem, stk⟩ = .ok (v i) ⟨mem, stk⟩ :=
      read_place (q := false) (s := ⟨mem, stk⟩) ⟨o.rc, h1⟩ (k := o.kind) (n := o.size) (h4 i hi) rfl
    unfold heapAt
    refine (bind_eq (s := ⟨mem, stk⟩) (obj_eq h1)).trans ?_
    rw [if_pos (by omega), h2]
    exact (bind_eq hr).trans (copy_bump hh.alive)
  | @map _ o ys u v h1 h2 h3 h4 h5 h6 =>
    refine ⟨o, h1, by simp [h3, Val.elems], rfl, rfl, fun i y hy => ?_⟩
    simp only [Val.elems, List.getElem?_map, Option.map_eq_some_iff] at hy
    obtain ⟨x, hx, rfl⟩ := hy
    have hi : i < ys.length := (List.getElem?_eq_some_iff.1 hx).1
    have hh := h6 i x hx
    refine ⟨v i, hh, fun stk => ?_⟩
    have hr : readLoc (.cell a i) ⟨mem, stk⟩ = .ok (v i) ⟨mem, stk⟩ :=
      read_place (q := false) (s := ⟨mem, stk⟩) ⟨o.rc, h1⟩ (k := o.kind) (n := o.size) (h4 i hi) rfl
    unfold heapAt
    refine (bind_eq (s := ⟨mem, stk⟩) (obj_eq h1)).trans ?_
    rw [if_pos (by omega), h2]
    exact (bind_eq hr).trans (copy_bump hh.alive)

/-- What a var says about itself. -/
theorem holds_view [Env α] {N : Numbers α} {s : State α} {v w : V α} {y : Val} (hd : Deno s.mem v w) (h : HoldsVal N s.mem w y) :
    (w = .nil ∧ y = .nil ∧ typeV v s = .ok none s ∧ sizeV v s = .ok 0 s ∧ heapOf v s = .ok none s) ∨
    (∃ k x, w = .num k x ∧ scalarVal N k x = some y ∧ typeV v s = .ok (some k) s ∧ sizeV v s = .ok 1 s ∧ getV k v s = .ok x s) ∨
    ∃ a o, w = .arr a ∧ ArrayOf N s.mem a y o ∧ typeV v s = .ok none s ∧ sizeV v s = .ok o.size s ∧ heapOf v s = .ok (some a) s := by
  have arr : ∀ a, w = .arr a → ∃ a o, w = .arr a ∧ ArrayOf N s.mem a y o ∧ typeV v s = .ok none s ∧ sizeV v s = .ok o.size s ∧ heapOf v s = .ok (some a) s := by
    rintro a rfl
    obtain ⟨o, ho⟩ := holds_array h
    exact ⟨a, o, rfl, ho, typeV_deno_arr hd, sizeV_deno hd ⟨o.rc, ho.obj⟩, heapOf_deno hd⟩
  cases h with
  | nil =>
    refine .inl ⟨rfl, rfl, (deno_nil hd).1, ?_, (deno_nil hd).2⟩
    obtain ⟨u, h1, h2⟩ := derefV_tot hd
    rcases h2 with rfl | ⟨b, j, k, n, cells, x, -, -, -, h⟩
    · unfold sizeV
      rw [bind_eq h1]
      rfl
    · cases h
  | @num k x _ h =>
    have hk := (scalar_type h).2.2.2.1
    refine .inr (.inl ⟨k, x, rfl, h, (deno_num hd hk).1, ?_, (deno_num hd hk).2⟩)
    obtain ⟨u, h1, h2⟩ := derefV_tot hd
    unfold sizeV
    rw [bind_eq h1]
    rcases h2 with rfl | ⟨b, j, k, n, cells, x, rfl, -, -, h⟩ <;> rfl
  | nums _ _ _ => exact .inr (.inr (arr _ rfl))
  | str _ _ _ _ => exact .inr (.inr (arr _ rfl))
  | list _ _ _ _ _ => exact .inr (.inr (arr _ rfl))
  | map _ _ _ _ _ _ => exact .inr (.inr (arr _ rfl))

/-! ## Loops -/

theorem anyLoop_neq {f : Nat → M α Bool} {g : Val → Val → Outcome Bool} {s : State α} : ∀ (l l' : List Val) (i : Nat), l.length = l'.length →
    (∀ (j : Nat) (z z' : Val), l[j]? = some z → l'[j]? = some z' → f (i + j) s = liftO (g z z') s) →
    anyLoop f i l.length s = liftO (Libube.neqLoop g l l') s := by
  intro l
  induction l with
  | nil => intro l' i _ _; rfl
  | cons z l ih =>
    intro l' i hl hf
    cases l' with
    | nil => simp at hl
    | cons z' l' =>
      simp only [List.length_cons, anyLoop, Libube.neqLoop]
      refine liftO_bind (hf 0 z z' rfl rfl) fun b _ => ?_
      cases b with
      | true => rfl
      | false =>
        exact ih l' (i + 1) (by simpa using hl) fun j y y' h h' => by
          have := hf (j + 1) y y' (by simpa using h) (by simpa using h')
          rwa [show i + (j + 1) = i + 1 + j by omega] at this

theorem anyLoop_lt {f : Nat → M α Bool} {g : Val → Val → Outcome Bool} {s : State α} : ∀ (l l' : List Val) (i : Nat),
    (∀ (j : Nat) (z z' : Val), l[j]? = some z → l'[j]? = some z' → f (i + j) s = liftO (g z z') s) →
    anyLoop f i (min l.length l'.length) s = liftO (Libube.ltLoop g l l') s := by
  intro l
  induction l with
  | nil => intro l' i _; cases l' <;> simp [anyLoop, Libube.ltLoop] <;> rfl
  | cons z l ih =>
    intro l' i hf
    cases l' with
    | nil => simp [anyLoop, Libube.ltLoop]; rfl
    | cons z' l' =>
      rw [List.length_cons, List.length_cons, Nat.add_min_add_right]
      simp only [anyLoop, Libube.ltLoop]
      refine liftO_bind (hf 0 z z' rfl rfl) fun b _ => ?_
      cases b with
      | true => rfl
      | false =>
        exact ih l' (i + 1) fun j y y' h h' => by
          have := hf (j + 1) y y' (by simpa using h) (by simpa using h')
          rwa [show i + (j + 1) = i + 1 + j by omega] at this

/-- What an operator does, whatever else is in memory. -/
def Refines (N : Numbers α) (f : V α → V α → M α Bool) (g : Val → Val → Outcome Bool) : Prop :=
  ∀ (mem : List (Option (Obj α))) (stk : List (V α)) (v v' w w' : V α) (x y : Val), Counted mem → Deno mem v v' → HoldsVal N mem v' x → Deno mem w w' →
    HoldsVal N mem w' y → f v w ⟨mem, stk⟩ = liftO (g x y) ⟨mem, stk⟩

theorem pairwise_lift [Env α] {N : Numbers α} {f : V α → V α → M α Bool} {g : Val → Val → Outcome Bool} (hf : Refines N f g) {mem : List (Option (Obj α))}
    {stk : List (V α)} (hc : Counted mem) {a b : Addr} {x y : Val} {o : Obj α} (ha : ArrayOf N mem a x o) (hb : HoldsVal N mem (.arr b) y) {i : Nat}
    {z z' : Val} (hz : x.elems[i]? = some z) (hz' : y.elems[i]? = some z') : pairwise f a (some b) i ⟨mem, stk⟩ = liftO (g z z') ⟨mem, stk⟩ := by
  obtain ⟨u, hu, h1⟩ := ha.elem i z hz
  unfold pairwise
  rw [bind_eq (h1 stk)]
  refine with_lift hc hu.alive ?_
  obtain ⟨q, hq⟩ := holds_array (bump_holds u hb)
  obtain ⟨u', hu', h2⟩ := hq.elem i z' hz'
  simp only []
  rw [bind_eq (h2 _)]
  refine with_lift (bump_counted u hc) hu'.alive ?_
  have r1 : readLoc (.slot stk.length) ⟨bump u' (bump u mem), stk ++ [u] ++ [u']⟩ = .ok u ⟨bump u' (bump u mem), stk ++ [u] ++ [u']⟩ := by
    simp [readLoc]
  have r2 : readLoc (.slot (stk ++ [u]).length) ⟨bump u' (bump u mem), stk ++ [u] ++ [u']⟩ = .ok u' ⟨bump u' (bump u mem), stk ++ [u] ++ [u']⟩ := by
    simp [readLoc]
  rw [bind_eq r1, bind_eq r2]
  exact hf _ _ u u u' u' z z' (bump_counted _ (bump_counted _ hc)) (.self hu.plain) (bump_holds _ (bump_holds _ hu)) (.self hu'.plain) (bump_holds _ hu')

theorem neqV_lift [Env α] (N : Numbers α) : ∀ n, Refines N (neqV N n) (Libube.neq n) := by
  intro n
  induction n with
  | zero => intro mem stk v v' w w' x y _ _ _ _ _; rfl
  | succ n ih =>
    intro mem stk v v' w w' x y hc hd hx hd' hy
    have V1 := holds_view (s := ⟨mem, stk⟩) hd hx
    have V2 := holds_view (s := ⟨mem, stk⟩) hd' hy
    unfold neqV
    rcases V1 with ⟨-, rfl, t1, s1, p1⟩ | ⟨k, c, -, e1, t1, s1, g1⟩ | ⟨a, o, rfl, A, t1, s1, p1⟩ <;>
      rcases V2 with ⟨-, rfl, t2, s2, p2⟩ | ⟨k', c', -, e2, t2, s2, g2⟩ | ⟨b, q, rfl, B, t2, s2, p2⟩ <;> rw [bind_eq t1, bind_eq t2]
    · rw [if_neg (by simp), bind_eq s1, bind_eq s2, if_neg (by simp)]
      simp only []
      rw [bind_eq p1]
      rfl
    · rw [if_pos (by simp), neq_other (.inl (by rw [show Val.nil.type = 0 from rfl]; exact (scalar_type e2).2.1.symm))]
      rfl
    · rw [if_neg (by simp), bind_eq s1, bind_eq s2]
      by_cases hs : 0 = q.size
      · rw [if_neg (by simp [hs])]
        simp only []
        rw [bind_eq p1, neq_arrays rfl B.type (by rw [nil_size, B.vsize]; exact hs)]
        rfl
      · rw [if_pos hs, neq_other (.inr (by rw [nil_size, B.vsize]; exact hs))]
        rfl
    · rw [if_pos (by simp), neq_other (.inl (by rw [show Val.nil.type = 0 from rfl]; exact (scalar_type e1).2.1))]
      rfl
    · by_cases hk : k = k'
      · subst hk
        rw [if_neg (by simp), bind_eq s1, bind_eq s2, if_neg (by simp), neq_scalar e1 e2]
        obtain ⟨-, -, -, h1, h2, h3⟩ := scalar_type e1
        cases k <;> simp at h1 h2 h3 <;> simp only [] <;> rw [bind_eq g1, bind_eq g2] <;> rfl
      · rw [if_pos (by simpa using hk), neq_other (.inl ?_)]
        · rfl
        · rw [(scalar_type e1).1, (scalar_type e2).1]
          cases k <;> cases k' <;> simp [typeNumber] at hk ⊢
    · rw [if_pos (by simp), neq_other (.inl (by rw [B.type]; exact (scalar_type e1).2.1))]
      rfl
    · rw [if_neg (by simp), bind_eq s1, bind_eq s2]
      by_cases hs : o.size = 0
      · rw [if_neg (by simp [hs])]
        have hl : x.elems = [] := List.length_eq_zero_iff.1 (by rw [← A.size, hs])
        simp only []
        rw [bind_eq p1]
        simp only []
        rw [bind_eq p2]
        refine (bind_eq (s := ⟨mem, stk⟩) (obj_eq A.obj)).trans ?_
        rw [hs, neq_arrays A.type rfl (by rw [nil_size, A.vsize, hs]), A.heap, hl]
        rfl
      · rw [if_pos hs, neq_other (.inr (by rw [nil_size, A.vsize]; exact hs))]
        rfl
    · rw [if_pos (by simp), neq_other (.inl (by rw [A.type]; exact (scalar_type e2).2.1.symm))]
      rfl
    · rw [if_neg (by simp), bind_eq s1, bind_eq s2]
      by_cases hs : o.size = q.size
      · rw [if_neg (by simp [hs])]
        simp only []
        rw [bind_eq p1]
        simp only []
        rw [bind_eq p2]
        refine (bind_eq (s := ⟨mem, stk⟩) (obj_eq A.obj)).trans ?_
        rw [neq_arrays A.type B.type (by rw [A.vsize, B.vsize, hs]), A.heap, A.size]
        refine anyLoop_neq _ _ 0 (by rw [← A.size, ← B.size, hs]) fun j z z' hz hz' => ?_
        rw [Nat.zero_add]
        exact pairwise_lift ih hc A hy hz hz'
      · rw [if_pos hs, neq_other (.inr (by rw [A.vsize, B.vsize]; exact hs))]
        rfl

/-! ## Order -/

theorem cstr_cons (c : UInt8) (s : Bytes) : cstr (c :: s) = if c = 0 then [] else c :: cstr s := by
  unfold cstr
  rw [List.takeWhile_cons]
  by_cases h : c = 0 <;> simp [h]

/-- Comparing the characters up to the NUL that ends each string. -/
theorem cmpChars_lift (N : Numbers α) {s : State α} {a b : Addr} {o p : Obj α} (ho : s.mem[a]? = some (some o)) (hp : s.mem[b]? = some (some p)) {z z' : α}
    (hz : N.char z = 0) (hz' : N.char z' = 0) : ∀ (xs ys : List α) (i n : Nat), min xs.length ys.length < n →
      (∀ (j : Nat) (x : α), (xs ++ [z])[j]? = some x → o.cells[i + j]? = some (.raw (some x))) →
      (∀ (j : Nat) (x : α), (ys ++ [z'])[j]? = some x → p.cells[i + j]? = some (.raw (some x))) →
      cmpChars N a b i n s = .ok (decide (strcmp (cstr (xs.map N.char)) (cstr (ys.map N.char)) < 0)) s := by
  intro xs
  induction xs with
  | nil =>
    intro ys i n hn h1 h2
    obtain ⟨n, rfl⟩ : ∃ m, n = m + 1 := ⟨n - 1, by omega⟩
    have e1 := rawAt_run (i := i) ho (h1 0 z rfl)
    cases ys with
    | nil =>
      have e2 := rawAt_run (i := i) hp (h2 0 z' rfl)
      rw [cmpChars, bind_eq e1, bind_eq e2, if_neg (by simp [hz, hz']), if_pos hz]
      rfl
    | cons y ys =>
      have e2 := rawAt_run (i := i) hp (h2 0 y rfl)
      rw [cmpChars, bind_eq e1, bind_eq e2, List.map_cons, cstr_cons, hz]
      by_cases hy : N.char y = 0
      · rw [if_neg (by simp [hy]), if_pos rfl, if_pos hy]
        rfl
      · rw [if_pos (fun h => hy h.symm), if_neg hy]
        have : (0 : UInt8) < N.char y := by
          rw [UInt8.lt_iff_toNat_lt]
          have : (N.char y).toNat ≠ 0 := fun h => hy (UInt8.toNat_inj.1 (by simpa using h))
          simp; omega
        simp [this, cstr, strcmp, pure_run]
  | cons x xs ih =>
    intro ys i n hn h1 h2
    obtain ⟨n, rfl⟩ : ∃ m, n = m + 1 := ⟨n - 1, by omega⟩
    have e1 := rawAt_run (i := i) ho (h1 0 x rfl)
    cases ys with
    | nil =>
      have e2 := rawAt_run (i := i) hp (h2 0 z' rfl)
      rw [cmpChars, bind_eq e1, bind_eq e2, List.map_cons, cstr_cons, hz']
      by_cases hx : N.char x = 0
      · rw [if_neg (by simp [hx]), if_pos hx, if_pos hx]
        rfl
      · rw [if_pos hx, if_neg hx]
        have : ¬ N.char x < (0 : UInt8) := by
          rw [UInt8.lt_iff_toNat_lt]
          simp
        simp [this, cstr, strcmp, pure_run]
    | cons y ys =>
      have e2 := rawAt_run (i := i) hp (h2 0 y rfl)
      rw [cmpChars, bind_eq e1, bind_eq e2, List.map_cons, List.map_cons, cstr_cons, cstr_cons]
      by_cases hxy : N.char x = N.char y
      · rw [if_neg (by simp [hxy]), ← hxy]
        by_cases hx : N.char x = 0
        · rw [if_pos hx, if_pos hx, if_pos hx]
          rfl
        · rw [if_neg hx, if_neg hx, if_neg hx, strcmp, if_pos rfl]
          refine ih ys (i + 1) n (by simp at hn ⊢; omega) (fun j c hj => ?_) fun j c hj => ?_
          · have := h1 (j + 1) c (by simpa using hj)
            rwa [show i + (j + 1) = i + 1 + j by omega] at this
          · have := h2 (j + 1) c (by simpa using hj)
            rwa [show i + (j + 1) = i + 1 + j by omega] at this
      · rw [if_pos hxy]
        have tot : N.char x < N.char y ∨ N.char y < N.char x := by
          rw [UInt8.lt_iff_toNat_lt, UInt8.lt_iff_toNat_lt]
          have : (N.char x).toNat ≠ (N.char y).toNat := fun h => hxy (UInt8.toNat_inj.1 h)
          omega
        have low : ∀ c : UInt8, ¬ c < 0 := fun c => by rw [UInt8.lt_iff_toNat_lt]; simp
        by_cases hx : N.char x = 0
        · rw [if_pos hx, if_neg (fun h => hxy (hx.trans h.symm))]
          have : N.char x < N.char y := tot.resolve_right (by rw [hx]; exact low _)
          simp [this, strcmp, pure_run]
        · rw [if_neg hx]
          by_cases hy : N.char y = 0
          · rw [if_pos hy]
            have : ¬ N.char x < N.char y := by rw [hy]; exact low _
            simp [this, strcmp, pure_run]
          · rw [if_neg hy, strcmp, if_neg hxy]
            by_cases hl : N.char x < N.char y <;> simp [hl, pure_run]

theorem lt_other {x y : Val} (h : x.type ≠ y.type) (n : Nat) : Libube.lt (n + 1) x y = .ok (decide (x.type < y.type)) := by
  unfold Libube.lt
  rw [if_pos h]

/-- Whether an array is a string, and what is in it. -/
theorem holds_chars {N : Numbers α} {mem : List (Option (Obj α))} {a : Addr} {o : Obj α} {y : Val} (h : HoldsVal N mem (.arr a) y)
    (ho : mem[a]? = some (some o)) : (o.kind ≠ .char ∧ ∀ s, y ≠ .chars s) ∨ ∃ xs z, o.kind = .char ∧ y = .chars (xs.map N.char) ∧ N.char z = 0 ∧
      ∀ (j : Nat) (x : α), (xs ++ [z])[j]? = some x → o.cells[j]? = some (.raw (some x)) := by
  cases h with
  | @nums _ o' k xs _ h1 h2 h3 =>
    cases h1.symm.trans ho
    obtain ⟨-, -, g3, -, -, -, -, g8, -⟩ := array_elems h3
    exact .inl ⟨by rw [h2.1]; exact g8, g3⟩
  | @str _ o' xs z h1 h2 h3 h4 =>
    cases h1.symm.trans ho
    refine .inr ⟨xs, z, h2.1, rfl, h4, fun j x hj => ?_⟩
    by_cases hl : j < xs.length
    · rw [List.getElem?_append_left hl] at hj
      exact h2.2.2 j x hj
    · rw [List.getElem?_append_right (by omega)] at hj
      obtain ⟨h5, h6⟩ := List.getElem?_eq_some_iff.1 hj
      have : j = xs.length := by simp at h5; omega
      subst this
      simp at h6
      rw [h3, h6]
  | @list _ o' ys v h1 h2 h3 h4 h5 =>
    cases h1.symm.trans ho
    exact .inl ⟨by rw [h2]; simp, by simp⟩
  | @map _ o' ys u v h1 h2 h3 h4 h5 h6 =>
    cases h1.symm.trans ho
    exact .inl ⟨by rw [h2]; simp, by simp⟩

theorem chars_cells {o : Obj α} {xs : List α} {z : α} (h : ∀ (j : Nat) (x : α), (xs ++ [z])[j]? = some x → o.cells[j]? = some (.raw (some x))) :
    xs.length < o.cells.length :=
  (List.getElem?_eq_some_iff.1 (h xs.length z (by simp))).1

theorem ltV_lift [Env α] (N : Numbers α) : ∀ n, Refines N (ltV N n) (Libube.lt n) := by
  intro n
  induction n with
  | zero => intro mem stk v v' w w' x y _ _ _ _ _; rfl
  | succ n ih =>
    intro mem stk v v' w w' x y hc hd hx hd' hy
    have V1 := holds_view (s := ⟨mem, stk⟩) hd hx
    have V2 := holds_view (s := ⟨mem, stk⟩) hd' hy
    unfold ltV
    rcases V1 with ⟨-, rfl, t1, s1, p1⟩ | ⟨k, c, -, e1, t1, s1, g1⟩ | ⟨a, o, rfl, A, t1, s1, p1⟩ <;>
      rcases V2 with ⟨-, rfl, t2, s2, p2⟩ | ⟨k', c', -, e2, t2, s2, g2⟩ | ⟨b, q, rfl, B, t2, s2, p2⟩ <;> rw [bind_eq t1, bind_eq t2]
    · rw [if_neg (by simp)]
      simp only []
      rw [bind_eq p1]
      rfl
    · rw [if_pos (by simp), lt_other (by rw [show Val.nil.type = 0 from rfl]; exact (scalar_type e2).2.1.symm), (scalar_type e2).1]
      rfl
    · rw [if_neg (by simp)]
      simp only []
      rw [bind_eq p1, lt_arrays rfl B.type]
      rfl
    · rw [if_pos (by simp), lt_other (by rw [show Val.nil.type = 0 from rfl]; exact (scalar_type e1).2.1), (scalar_type e1).1]
      rfl
    · by_cases hk : k = k'
      · subst hk
        rw [if_neg (by simp), lt_scalar e1 e2]
        obtain ⟨-, -, -, h1, h2, h3⟩ := scalar_type e1
        cases k <;> simp at h1 h2 h3 <;> simp only [] <;> rw [bind_eq g1, bind_eq g2] <;> rfl
      · rw [if_pos (by simpa using hk), lt_other, (scalar_type e1).1, (scalar_type e2).1]
        · rfl
        · rw [(scalar_type e1).1, (scalar_type e2).1]
          cases k <;> cases k' <;> simp [typeNumber] at hk ⊢
    · rw [if_pos (by simp), lt_other (by rw [B.type]; exact (scalar_type e1).2.1), (scalar_type e1).1, B.type]
      rfl
    · rw [if_neg (by simp)]
      simp only []
      rw [bind_eq p1]
      simp only []
      rw [bind_eq p2, lt_arrays A.type rfl, A.heap]
      rfl
    · rw [if_pos (by simp), lt_other (by rw [A.type]; exact (scalar_type e2).2.1.symm), (scalar_type e2).1, A.type]
      rfl
    · rw [if_neg (by simp)]
      simp only []
      rw [bind_eq p1]
      simp only []
      rw [bind_eq p2]
      simp only [heapLt]
      refine (bind_eq (s := ⟨mem, stk⟩) (obj_eq A.obj)).trans ?_
      refine (bind_eq (s := ⟨mem, stk⟩) (obj_eq B.obj)).trans ?_
      rw [lt_arrays A.type B.type, A.heap, B.heap]
      have hloop : anyLoop (pairwise (ltV N n) a (some b)) 0 (min o.size q.size) ⟨mem, stk⟩ =
          liftO (Libube.ltLoop (Libube.lt n) x.elems y.elems) ⟨mem, stk⟩ := by
        rw [A.size, B.size]
        refine anyLoop_lt _ _ 0 fun j z z' hz hz' => ?_
        rw [Nat.zero_add]
        exact pairwise_lift ih hc A hy hz hz'
      rcases holds_chars hx A.obj with ⟨k1, n1⟩ | ⟨xs, z, k1, rfl, hz, c1⟩
      · rw [if_neg (fun h => k1 h.1), hloop]
        cases x <;> first | rfl | exact absurd rfl (n1 _)
      · rcases holds_chars hy B.obj with ⟨k2, n2⟩ | ⟨ys, z', k2, rfl, hz', c2⟩
        · rw [if_neg (fun h => k2 h.2), hloop]
          cases y <;> first | rfl | exact absurd rfl (n2 _)
        · rw [if_pos ⟨k1, k2⟩]
          refine cmpChars_lift N (s := ⟨mem, stk⟩) A.obj B.obj hz hz' xs ys 0 _ ?_ (by simpa using c1) (by simpa using c2)
          have := chars_cells c1
          have := chars_cells c2
          omega

/-! ## Calls -/

theorem callOp_lift {N : Numbers α} {f : V α → V α → M α Bool} {g : Val → Val → Outcome Bool} (hf : Refines N f g) {mem : List (Option (Obj α))}
    {stk : List (V α)} (hc : Counted mem) {v v' w w' : V α} {x y : Val} (hd : Deno mem v v') (hx : HoldsVal N mem v' x) (hw : Alive w mem) (hd' : Deno mem w w')
    (hy : HoldsVal N mem w' y) : callOp f v w ⟨mem, stk⟩ = liftO (g x y) ⟨mem, stk⟩ := by
  unfold callOp
  rw [bind_eq (copy_bump hw)]
  refine with_lift hc hw ?_
  have r : readLoc (.slot stk.length) ⟨bump w mem, stk ++ [w]⟩ = .ok w ⟨bump w mem, stk ++ [w]⟩ := by simp [readLoc]
  rw [bind_eq r]
  exact hf _ _ v v' w w' x y (bump_counted _ hc) (bump_deno _ hd) (bump_holds _ hx) (bump_deno _ hd') (bump_holds _ hy)

theorem eqV_lift [Env α] (N : Numbers α) (n : Nat) {mem : List (Option (Obj α))} {stk : List (V α)} (hc : Counted mem) {v v' w w' : V α} {x y : Val}
    (hd : Deno mem v v') (hx : HoldsVal N mem v' x) (hw : Alive w mem) (hd' : Deno mem w w') (hy : HoldsVal N mem w' y) :
    eqV N n v w ⟨mem, stk⟩ = liftO (Libube.eq n x y) ⟨mem, stk⟩ := by
  unfold eqV
  rw [bind_eq (copy_bump hw)]
  refine with_lift hc hw ?_
  have r : readLoc (.slot stk.length) ⟨bump w mem, stk ++ [w]⟩ = .ok w ⟨bump w mem, stk ++ [w]⟩ := by simp [readLoc]
  rw [bind_eq r]
  unfold Libube.eq
  exact liftO_bind (callOp_lift (neqV_lift N n) (bump_counted _ hc) (bump_deno _ hd) (bump_holds _ hx) (bump_alive _ hw) (bump_deno _ hd') (bump_holds _ hy))
    fun b _ => rfl

end Libube.Mem

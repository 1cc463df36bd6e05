import Verif.Lemmas.MemCompare

/-! # Searching in memory gives what searching values does (C171) -/

namespace Libube.Mem

open MemSpec CString

variable {α : Type}

/-- An element and the reference to it. -/
theorem elem_deno {N : Numbers α} {mem : List (Option (Obj α))} {a : Addr} {y z : Val} {i : Nat} (h : HoldsVal N mem (.arr a) y) (hz : y.elems[i]? = some z) :
    ∃ u, Deno mem (.ref a i) u ∧ HoldsVal N mem u z := by
  cases h with
  | @nums _ o k xs _ h1 h2 h3 =>
    obtain ⟨-, -, -, -, g5, g6, g7, -, g9⟩ := array_elems h3
    obtain ⟨x, hx, hs⟩ := g9 i z hz
    exact ⟨.num k x, .num (k := k) (n := o.size) (cells := o.cells) ⟨o.rc, by rw [h1, ← h2.1]⟩ ⟨g6, g7⟩ g5 (h2.2.2 i x hx), .num hs⟩
  | @str _ o xs _ h1 h2 h3 h4 =>
    simp only [Val.elems, List.map_map, List.getElem?_map, Option.map_eq_some_iff] at hz
    obtain ⟨x, hx, rfl⟩ := hz
    exact ⟨.num .char x, .num (k := .char) (n := o.size) (cells := o.cells) ⟨o.rc, by rw [h1, ← h2.1]⟩ ⟨by simp, by simp⟩ (by simp) (h2.2.2 i x hx), .num rfl⟩
  | @list _ o ys v h1 h2 h3 h4 h5 =>
    have hz : ys[i]? = some z := hz
    have hh := h5 i z hz
    exact ⟨v i, .var (k := o.kind) (n := o.size) ⟨o.rc, h1⟩ (.inl h2) (h4 i (List.getElem?_eq_some_iff.1 hz).1) rfl hh.plain, hh⟩
  | @map _ o ys u v h1 h2 h3 h4 h5 h6 =>
    simp only [Val.elems, List.getElem?_map, Option.map_eq_some_iff] at hz
    obtain ⟨x, hx, rfl⟩ := hz
    have hh := h6 i x hx
    exact ⟨v i, .var (k := o.kind) (n := o.size) ⟨o.rc, h1⟩ (.inr h2) (h4 i (List.getElem?_eq_some_iff.1 hx).1) rfl hh.plain, hh⟩

theorem holds_pair {N : Numbers α} {mem : List (Option (Obj α))} {a : Addr} {o : Obj α} {y : Val} (h : HoldsVal N mem (.arr a) y)
    (ho : mem[a]? = some (some o)) : (o.kind ≠ .pair ∧ ∀ ps, y ≠ .map ps) ∨ ∃ ps, o.kind = .pair ∧ y = .map ps ∧ o.size = ps.length ∧
      ∀ (i : Nat) (q : Val × Val), ps[i]? = some q → ∃ u v, o.cells[i]? = some (.pair u v) ∧ HoldsVal N mem u q.1 := by
  cases h with
  | @nums _ o' k xs _ h1 h2 h3 =>
    cases h1.symm.trans ho
    refine .inl ⟨by rw [h2.1]; exact (array_elems h3).2.2.2.2.2.2.1, ?_⟩
    rintro ps rfl
    cases k <;> simp [arrayVal] at h3
  | @str _ o' xs z h1 h2 h3 h4 =>
    cases h1.symm.trans ho
    exact .inl ⟨by rw [h2.1]; simp, by simp⟩
  | @list _ o' ys v h1 h2 h3 h4 h5 =>
    cases h1.symm.trans ho
    exact .inl ⟨by rw [h2]; simp, by simp⟩
  | @map _ o' ys u v h1 h2 h3 h4 h5 h6 =>
    cases h1.symm.trans ho
    exact .inr ⟨ys, h2, rfl, h3, fun i q hq => ⟨u i, v i, h4 i (List.getElem?_eq_some_iff.1 hq).1, h5 i q hq⟩⟩

theorem defined_arr {s : State α} {v : V α} {a : Addr} (h : Deno s.mem v (.arr a)) : definedV v s = .ok true s := by
  obtain ⟨u, h1, h2⟩ := derefV_tot h
  rcases h2 with rfl | ⟨b, j, k, n, cells, x, -, -, -, h⟩
  · unfold definedV
    rw [bind_eq h1]
    rfl
  · cases h

theorem defined_nil {s : State α} {v : V α} (h : Deno s.mem v .nil) : definedV v s = .ok false s := by
  obtain ⟨u, h1, h2⟩ := derefV_tot h
  rcases h2 with rfl | ⟨b, j, k, n, cells, x, -, -, -, h⟩
  · unfold definedV
    rw [bind_eq h1]
    rfl
  · cases h

/-- A number, directly or through a reference, is its own first element. -/
theorem at_num_bump [Env α] {mem : List (Option (Obj α))} {stk : List (V α)} {v : V α} {k : Kind} {c : α} (hc : Counted mem) (hv : Alive v mem)
    (hd : Deno mem v (.num k c)) : at' v ((0 : Nat) : Int) ⟨mem, stk⟩ = .ok (.num k c) ⟨mem, stk⟩ := by
  have hrd : ∀ (m : List (Option (Obj α))) (x : V α), readLoc (.slot stk.length) ⟨m, stk ++ [x]⟩ = .ok x ⟨m, stk ++ [x]⟩ := by
    intro m x
    simp [readLoc]
  have hwr : ∀ (m : List (Option (Obj α))) (x y : V α), writeLoc (.slot stk.length) y ⟨m, stk ++ [x]⟩ = .ok () ⟨m, stk ++ [y]⟩ := by
    intro m x y
    simp [writeLoc]
  have hl : Alive (.num k c : V α) mem := by simp [Alive, V.ptr]
  have key : ∃ r, dereference (.slot stk.length) ⟨bump v mem, stk ++ [v]⟩ = .ok r ⟨mem, stk ++ [.num k c]⟩ := by
    cases hd with
    | self _ =>
      refine ⟨.slot stk.length, ?_⟩
      unfold dereference
      rw [bind_eq (hrd _ _)]
      rfl
    | @var b j k' n' cells' c' _ h1 h2 h3 h4 h5 =>
      have hb : Alive (.arr b : V α) mem := fun b hb => by cases hb; exact h1.live
      have h1' : Is (bump (.ref b j) mem) b k' n' cells' := bump_is _ h1
      refine ⟨.cell b j, ?_⟩
      unfold dereference
      rw [bind_eq (hrd _ _)]
      simp only
      rw [bind_eq (derefLoc_var (s := ⟨bump (.ref b j) mem, _⟩) h1' h2)]
      simp only
      rw [if_neg (by simp), bind_eq (hwr _ _ _)]
      have hr : ∀ st : List (V α), readLoc (.cell b j) ⟨bump (.ref b j) mem, st⟩ = .ok (.num k c) ⟨bump (.ref b j) mem, st⟩ :=
        fun st => read_place (q := false) (s := ⟨bump (.ref b j) mem, st⟩) h1' h3 h4
      rw [bind_eq (hr _)]
      simp only
      have a1 : ∀ st : State α, attachV (.num k c : V α) st = .ok () st := fun _ => rfl
      have d1 : ∀ st : State α, detachV (.num k c : V α) st = .ok () st := fun _ => rfl
      rw [bind_eq (a1 _)]
      have e3 : share (.slot stk.length) (.num k c) ⟨bump (.ref b j) mem, stk ++ [.arr b]⟩ = .ok () ⟨mem, stk ++ [.num k c]⟩ := by
        unfold share
        rw [bind_eq (hrd _ _), bind_eq (a1 _), bind_eq (hwr _ _ _)]
        exact detach_bump (v := .arr b) hc hb
      rw [bind_eq e3, bind_eq (d1 _)]
      rfl
    | @num b j _ n cells _ h1 h2 h3 h4 =>
      have hb : Alive (.arr b : V α) mem := fun b hb => by cases hb; exact h1.live
      obtain ⟨rc, h1'⟩ : Is (bump (.ref b j) mem) b k n cells := bump_is _ h1
      refine ⟨.slot stk.length, ?_⟩
      unfold dereference
      rw [bind_eq (hrd _ _)]
      simp only
      rw [bind_eq (derefLoc_num (s := ⟨bump (.ref b j) mem, _⟩) h1' h2)]
      simp only
      rw [bind_eq (obj_eq (s := ⟨bump (.ref b j) mem, _⟩) h1'), bind_eq (rawAt_run (s := ⟨bump (.ref b j) mem, _⟩) h1' h4), if_neg h3, bind_eq (hwr _ _ _)]
      exact (bind_eq (detach_bump (v := .arr b) hc hb)).trans rfl
  obtain ⟨r, key⟩ := key
  unfold at'
  rw [bind_eq (attach_bump hv)]
  refine withVar_run (s := ⟨bump v mem, stk⟩) (w := .num k c) (mem1 := mem) ?_ rfl rfl
  refine (bind_eq key).trans ?_
  rw [bind_eq (hrd _ _)]
  rfl

theorem num_shape {s : State α} {v : V α} {k : Kind} {c : α} (h : Deno s.mem v (.num k c)) :
    definedV v s = .ok true s ∧ atypeV v s = .ok k s ∧ sizeV v s = .ok 1 s := by
  obtain ⟨u, h1, h2⟩ := derefV_tot h
  rcases h2 with rfl | ⟨b, j, k', n, cells, x, rfl, ⟨rc, g⟩, -, e⟩
  · refine ⟨?_, ?_, ?_⟩
    · unfold definedV; rw [bind_eq h1]; rfl
    · unfold atypeV; rw [bind_eq h1]; rfl
    · unfold sizeV; rw [bind_eq h1]; rfl
  · cases e
    refine ⟨?_, ?_, ?_⟩
    · unfold definedV; rw [bind_eq h1]; rfl
    · unfold atypeV; rw [bind_eq h1]; exact (bind_eq (obj_eq g)).trans rfl
    · unfold sizeV; rw [bind_eq h1]; rfl

theorem findLoop_lift {f : Nat → M α Bool} {n : Nat} {k : Val} {s : State α} : ∀ (l : List Val) (i : Nat),
    (∀ (j : Nat) (z : Val), l[j]? = some z → f (i + j) s = liftO (Libube.eq n z k) s) → findLoop f i l.length s = liftO (Libube.indexLoop n k i l) s := by
  intro l
  induction l with
  | nil => intro i _; rfl
  | cons z l ih =>
    intro i hf
    simp only [List.length_cons, findLoop, Libube.indexLoop]
    refine liftO_bind (hf 0 z rfl) fun b _ => ?_
    cases b with
    | true => rfl
    | false =>
      exact ih (i + 1) fun j y h => by
        have := hf (j + 1) y (by simpa using h)
        rwa [show i + (j + 1) = i + 1 + j by omega] at this

/-- The search asks for the same places as that of the value model. -/
theorem searchV_lift [Env α] {N : Numbers α} {n : Nat} {x : Nat → M α (V α)} {w : V α} {cmp : Nat → Outcome Bool} {s : State α} {L : Nat}
    (hx : ∀ p, p < L → ∃ u s1, x p s = .ok u s1 ∧ withVar u (fun l => do callOp (ltV N n) (← readLoc l) w) s1 = liftO (cmp p) s) :
    ∀ f lo hi, lo ≤ hi → hi ≤ L → hi - lo < f → searchV N n x w f lo hi s = liftO (Libube.binaryLoop cmp lo hi >>= fun r => .ok r.1) s := by
  intro f
  induction f with
  | zero => intros; omega
  | succ f ih =>
    intro lo hi h1 h2 h3
    unfold searchV Libube.binaryLoop
    by_cases he : lo = hi
    · rw [if_pos he, dif_neg (by omega)]
      rfl
    · rw [if_neg he, dif_pos (by omega)]
      obtain ⟨u, s1, e1, e2⟩ := hx ((hi - lo) / 2 + lo) (by omega)
      rw [bind_eq e1]
      have e4 := liftO_bind (f := fun r => if r = true then searchV N n x w f ((hi - lo) / 2 + lo + 1) hi else searchV N n x w f lo ((hi - lo) / 2 + lo))
        (g := fun b => (Libube.binaryLoop cmp (if b then (hi - lo) / 2 + lo + 1 else lo) (if b then hi else (hi - lo) / 2 + lo)) >>= fun r => .ok r.1) e2
        (fun b _ => by
          cases b with
          | true => exact ih _ _ (by omega) h2 (by omega)
          | false => exact ih _ _ (by omega) (by omega) (by omega))
      refine e4.trans ?_
      congr 1
      cases hc : cmp ((hi - lo) / 2 + lo) with
      | ok b =>
        cases b with
        | true => simp only [hc, Outcome.bind_ok, if_true]; cases Libube.binaryLoop cmp ((hi - lo) / 2 + lo + 1) hi <;> rfl
        | false => simp only [hc, Outcome.bind_ok, Bool.false_eq_true, if_false]; cases Libube.binaryLoop cmp lo ((hi - lo) / 2 + lo) <;> rfl
      | _ => simp only [hc]; rfl

/-- What is searched: the keys of a map, the elements of another array. -/
def searched : Val → List Val
  | .map ps => ps.map Prod.fst
  | v => v.elems

theorem binaryV_lift [Env α] (N : Numbers α) (n : Nat) {mem : List (Option (Obj α))} {stk : List (V α)} (hc : Counted mem) {v w w' : V α} {a : Addr} {x y : Val}
    (hv : Alive v mem) (hd : Deno mem v (.arr a)) (hx : HoldsVal N mem (.arr a) x) (hw : Alive w mem) (hd' : Deno mem w w') (hy : HoldsVal N mem w' y) :
    binaryV N n v w ⟨mem, stk⟩ = liftO (Libube.binary n (searched x) y) ⟨mem, stk⟩ := by
  obtain ⟨o, A⟩ := holds_array hx
  have call : ∀ (u u' : V α) (z : Val), Alive u mem → Deno mem u u' → HoldsVal N mem u' z →
      withVar u (fun l => do callOp (ltV N n) (← readLoc l) w) ⟨bump u mem, stk⟩ = liftO (Libube.lt n z y) ⟨mem, stk⟩ := by
    intro u u' z hu d h
    refine with_lift hc hu ?_
    have r : readLoc (.slot stk.length) ⟨bump u mem, stk ++ [u]⟩ = .ok u ⟨bump u mem, stk ++ [u]⟩ := by simp [readLoc]
    rw [bind_eq r]
    exact callOp_lift (ltV_lift N n) (bump_counted _ hc) (bump_deno _ d) (bump_holds _ h) (bump_alive _ hw) (bump_deno _ hd') (bump_holds _ hy)
  have done : ∀ (f : Nat → M α (V α)) (l : List Val), l.length = o.size → o.size ≠ 0 →
      (∀ p z, l[p]? = some z → ∃ u u', f p ⟨mem, stk⟩ = .ok u ⟨bump u mem, stk⟩ ∧ Alive u mem ∧ Deno mem u u' ∧ HoldsVal N mem u' z) →
      searchV N n f w (o.size + 1) 0 o.size ⟨mem, stk⟩ = liftO (Libube.binary n l y) ⟨mem, stk⟩ := by
    intro f l hl h0 hf
    have := searchV_lift (N := N) (n := n) (x := f) (w := w) (s := ⟨mem, stk⟩) (L := o.size)
      (cmp := fun pos => match l[pos]? with
        | some x => Libube.lt n x y
        | none => .ub .outOfBounds) (fun p hp => by
          obtain ⟨z, hz⟩ : ∃ z, l[p]? = some z := ⟨_, List.getElem?_eq_getElem (by omega)⟩
          obtain ⟨u, u', e1, e2, e3, e4⟩ := hf p z hz
          refine ⟨u, _, e1, ?_⟩
          simp only [hz]
          exact call u u' z e2 e3 e4) (o.size + 1) 0 o.size (by omega) (by omega) (by omega)
    rw [this]
    unfold Libube.binary Libube.binaryCount
    rw [if_neg (by omega), hl]
    rfl
  unfold binaryV
  rw [bind_eq (sizeV_deno (s := ⟨mem, stk⟩) hd ⟨o.rc, A.obj⟩)]
  rcases holds_pair hx A.obj with ⟨k1, k2⟩ | ⟨ps, k1, rfl, k3, k4⟩
  · have hs : searched x = x.elems := by
      cases x <;> first | rfl | exact absurd rfl (k2 _)
    rw [hs]
    by_cases h0 : o.size = 0
    · rw [if_pos h0]
      unfold Libube.binary Libube.binaryCount
      rw [if_pos (by rw [← A.size, h0])]
      rfl
    · rw [if_neg h0, bind_eq (heapOf_deno (s := ⟨mem, stk⟩) hd)]
      simp only []
      refine (bind_eq (s := ⟨mem, stk⟩) (obj_eq A.obj)).trans ?_
      rw [if_neg k1]
      refine done _ _ A.size.symm h0 fun p z hz => ?_
      obtain ⟨u, d, h⟩ := elem_deno hx hz
      exact ⟨.ref a p, u, at_bump hc hv ⟨o, A.obj⟩ hd p, fun b hb => by cases hb; exact ⟨o, A.obj⟩, d, h⟩
  · by_cases h0 : o.size = 0
    · rw [if_pos h0]
      unfold Libube.binary Libube.binaryCount
      rw [if_pos (by simp [searched]; exact List.length_eq_zero_iff.1 (by omega))]
      rfl
    · rw [if_neg h0, bind_eq (heapOf_deno (s := ⟨mem, stk⟩) hd)]
      simp only []
      refine (bind_eq (s := ⟨mem, stk⟩) (obj_eq A.obj)).trans ?_
      rw [if_pos k1]
      refine done _ _ (by simp [searched, k3]) h0 fun p z hz => ?_
      simp only [searched, List.getElem?_map, Option.map_eq_some_iff] at hz
      obtain ⟨q, hq, rfl⟩ := hz
      obtain ⟨u, v', c1, c2⟩ := k4 p q hq
      have hp : p < o.size := by rw [k3]; exact (List.getElem?_eq_some_iff.1 hq).1
      exact ⟨u, u, keyAt_bump hd ⟨o.rc, by rw [A.obj, ← k1]⟩ hp c1 c2.alive, c2.alive, .self c2.plain, c2⟩

theorem indexV_lift [Env α] (N : Numbers α) (n : Nat) {mem : List (Option (Obj α))} {stk : List (V α)} (hc : Counted mem) {v w w' : V α} {a : Addr} {x y : Val}
    (hv : Alive v mem) (hd : Deno mem v (.arr a)) (hx : HoldsVal N mem (.arr a) x) (hw : Alive w mem) (hd' : Deno mem w w') (hy : HoldsVal N mem w' y) :
    indexV N n v w ⟨mem, stk⟩ = liftO (Libube.index n x y) ⟨mem, stk⟩ := by
  obtain ⟨o, A⟩ := holds_array hx
  unfold indexV
  rw [bind_eq (defined_arr (s := ⟨mem, stk⟩) hd), if_neg (by simp), bind_eq (atypeV_deno (s := ⟨mem, stk⟩) hd A.obj)]
  rcases holds_pair hx A.obj with ⟨k1, k2⟩ | ⟨ps, k1, rfl, k3, k4⟩
  · have hi : Libube.index n x y = Libube.indexLoop n y 0 x.elems := by
      have ht := A.type
      have hh := A.heap
      cases hx with
      | @nums _ _ k xs _ _ _ h3 => cases k <;> simp [arrayVal] at h3 <;> subst h3 <;> rfl
      | str _ _ _ _ => rfl
      | list _ _ _ _ _ => rfl
      | map _ _ _ _ _ _ => exact absurd rfl (k2 _)
    rw [hi]
    have key : (sizeV v >>= fun s => findLoop (fun i => do withVar (← at' v i) fun l => do eqV N n (← readLoc l) w) 0 s) ⟨mem, stk⟩ =
        liftO (Libube.indexLoop n y 0 x.elems) ⟨mem, stk⟩ := by
      rw [bind_eq (sizeV_deno (s := ⟨mem, stk⟩) hd ⟨o.rc, A.obj⟩), A.size]
      refine findLoop_lift _ 0 fun j z hz => ?_
      rw [Nat.zero_add]
      obtain ⟨u, d, h⟩ := elem_deno hx hz
      rw [bind_eq (at_bump hc hv ⟨o, A.obj⟩ hd j)]
      refine with_lift (v := .ref a j) hc (fun b hb => by cases hb; exact ⟨o, A.obj⟩) ?_
      have r : ∀ m : List (Option (Obj α)), readLoc (.slot stk.length) ⟨m, stk ++ [.ref a j]⟩ = .ok (.ref a j) ⟨m, stk ++ [.ref a j]⟩ := by
        intro m; simp [readLoc]
      rw [bind_eq (r _)]
      exact eqV_lift N n (bump_counted _ hc) (bump_deno _ d) (bump_holds _ h) (bump_alive _ hw) (bump_deno _ hd') (bump_holds _ hy)
    cases hk : o.kind <;> first | exact key | exact absurd hk k1
  · rw [k1]
    simp only []
    rw [bind_eq (copy_bump hw)]
    have e : withVar w (fun l => do binaryV N n v (← readLoc l)) ⟨bump w mem, stk⟩ = liftO (Libube.binary n (ps.map Prod.fst) y) ⟨mem, stk⟩ := by
      refine with_lift hc hw ?_
      have r : readLoc (.slot stk.length) ⟨bump w mem, stk ++ [w]⟩ = .ok w ⟨bump w mem, stk ++ [w]⟩ := by simp [readLoc]
      rw [bind_eq r]
      exact binaryV_lift N n (bump_counted _ hc) (bump_alive _ hv) (bump_deno _ hd) (bump_holds _ hx) (bump_alive _ hw) (bump_deno _ hd') (bump_holds _ hy)
    rw [Libube.index]
    refine liftO_bind e fun p _ => ?_
    rw [bind_eq (sizeV_deno (s := ⟨mem, stk⟩) hd ⟨o.rc, A.obj⟩)]
    by_cases hp : p < o.size
    · obtain ⟨q, hq⟩ : ∃ q, ps[p]? = some q := ⟨_, List.getElem?_eq_getElem (by omega)⟩
      obtain ⟨u, v', c1, c2⟩ := k4 p q hq
      have hr : readLoc (.key a p) ⟨mem, stk⟩ = .ok u ⟨mem, stk⟩ :=
        read_place (q := true) (s := ⟨mem, stk⟩) (k := o.kind) (n := o.size) ⟨o.rc, A.obj⟩ c1 rfl
      rw [if_pos hp, bind_eq (heapOf_deno (s := ⟨mem, stk⟩) hd)]
      simp only [hq]
      rw [bind_eq hr]
      refine liftO_bind (eqV_lift N n hc (.self c2.plain) c2 hw hd' hy) fun b _ => ?_
      cases b <;> rfl
    · have hq : ps[p]? = none := List.getElem?_eq_none (by omega)
      rw [if_neg hp]
      simp only [hq]
      rfl

end Libube.Mem

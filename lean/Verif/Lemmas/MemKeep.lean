import Verif.Lemmas.Mem

/-! # Every call keeps the counts -/

namespace Libube.Mem

variable {α β γ : Type}

theorem obj_ok {a : Addr} {s s' : State α} {o : Obj α} (h : obj a s = .ok o s') :
    s' = s ∧ s.mem[a]? = some (some o) := by
  unfold obj at h
  split at h
  · next o' ho =>
    cases h
    exact ⟨rfl, ho⟩
  · cases h

theorem obj_eq {a : Addr} {s : State α} {o : Obj α} (h : s.mem[a]? = some (some o)) :
    obj a s = .ok o s := by
  simp [obj, h]

theorem bind_ok {m : M α β} {f : β → M α γ} {s s' : State α} {c : γ} (h : (m >>= f) s = .ok c s') :
    ∃ b s1, m s = .ok b s1 ∧ f b s1 = .ok c s' := by
  rw [bind_run] at h
  unfold M.bind at h
  cases hm : m s with
  | ok b s1 => rw [hm] at h; exact ⟨b, s1, rfl, h⟩
  | thrown e s1 => rw [hm] at h; cases h
  | ub u => rw [hm] at h; cases h
  | abort => rw [hm] at h; cases h
  | diverge => rw [hm] at h; cases h

theorem bind_eq {m : M α β} {f : β → M α γ} {s s1 : State α} {b : β} (h : m s = .ok b s1) :
    (m >>= f) s = f b s1 := by
  rw [bind_run]
  unfold M.bind
  rw [h]

theorem bind_pure_unit (m : M α Unit) : (m >>= fun _ => pure ()) = m := by
  funext s
  rw [bind_run]
  unfold M.bind
  cases m s <;> rfl

/-- A call that never throws keeps the counts if its normal result does. -/
theorem Keep.of_ok {lk : Bool} {m : M α β} {pre : List Addr} {post : β → List Addr} (hn : NT m)
    (h : ∀ s own b s', Inv s (pre ++ own) → m s = .ok b s' →
      Inv s' (post b ++ own) ∧ s'.stk.length = s.stk.length) : Keep lk m pre post := by
  intro s own hi
  cases hm : m s with
  | ok b s' =>
    obtain ⟨h1, h2⟩ := h s own b s' hi hm
    exact ⟨[], fun _ => rfl, h1, h2⟩
  | thrown e s' => exact absurd hm (hn s e s')
  | ub u => trivial
  | abort => trivial
  | diverge => trivial

/-- Reading a place: the possible results. -/
theorem readLoc_ok {l : Loc} {s s' : State α} {v : V α} (h : readLoc l s = .ok v s') : s' = s := by
  have := readLoc_ro l s
  rw [h] at this
  exact this

theorem readLoc_cell {a : Addr} {i : Nat} {s s' : State α} {v : V α}
    (h : readLoc (.cell a i) s = .ok v s') : s' = s ∧ ∃ o, s.mem[a]? = some (some o) ∧
      (o.cells[i]? = some (.var v) ∨ ∃ k, o.cells[i]? = some (.pair k v)) := by
  obtain ⟨o, s1, ho, h2⟩ := bind_ok h
  obtain ⟨rfl, ho'⟩ := obj_ok ho
  cases hc : o.cells[i]? with
  | none => rw [hc] at h2; cases h2
  | some c =>
    rw [hc] at h2
    cases c with
    | raw x => cases h2
    | var w => cases h2; exact ⟨rfl, o, ho', .inl hc⟩
    | pair k w => cases h2; exact ⟨rfl, o, ho', .inr ⟨k, hc⟩⟩

theorem readLoc_key {a : Addr} {i : Nat} {s s' : State α} {v : V α}
    (h : readLoc (.key a i) s = .ok v s') : s' = s ∧ ∃ o, s.mem[a]? = some (some o) ∧
      ∃ w, o.cells[i]? = some (.pair v w) := by
  obtain ⟨o, s1, ho, h2⟩ := bind_ok h
  obtain ⟨rfl, ho'⟩ := obj_ok ho
  cases hc : o.cells[i]? with
  | none => rw [hc] at h2; cases h2
  | some c =>
    rw [hc] at h2
    cases c with
    | raw x => cases h2
    | var w => cases h2
    | pair k w => cases h2; exact ⟨rfl, o, ho', w, hc⟩

theorem readLoc_slot {n : Nat} {s s' : State α} {v : V α} (h : readLoc (.slot n) s = .ok v s') :
    s' = s ∧ s.stk[n]? = some v := by
  simp only [readLoc] at h
  split at h
  · next w hw => cases h; exact ⟨rfl, hw⟩
  · cases h

theorem CellOk.set {o : Obj α} (h : o.Typed) {i : Nat} {x y : Cell α} (hx : o.cells[i]? = some x)
    (hxy : ∀ k, CellOk k x → CellOk k y) (n r : Nat) :
    Obj.Typed { o with size := n, rc := r, cells := o.cells.set i y } := by
  intro c hc
  rcases List.mem_or_eq_of_mem_set hc with h1 | h1
  · exact h c h1
  · subst h1
    exact hxy _ (h x (List.mem_of_getElem? hx))

theorem writeLoc_ok {l : Loc} {s : State α} {t v : V α} {own own' : List Addr} (hr : readLoc l s = .ok t s)
    (hi : Inv s own) (hc : ∀ a, own.count a + t.ptr.toList.count a = own'.count a + v.ptr.toList.count a) :
    ∃ s', writeLoc l v s = .ok () s' ∧ Inv s' own' ∧ s'.stk.length = s.stk.length ∧
      readLoc l s' = .ok v s' := by
  cases l with
  | slot n =>
    obtain ⟨-, hn⟩ := readLoc_slot hr
    have hl : n < s.stk.length := (List.getElem?_eq_some_iff.1 hn).1
    refine ⟨{ s with stk := s.stk.set n v }, by simp [writeLoc, hl], ?_, by simp, by simp [readLoc, hl]⟩
    refine InvM.congr hi fun a => ?_
    have := stkPtrs_set hn v a
    have := hc a
    simp only [List.count_append]
    omega
  | cell a i =>
    obtain ⟨-, o, ho, hcell⟩ := readLoc_cell hr
    have hl : a < s.mem.length := (List.getElem?_eq_some_iff.1 ho).1
    have hp := InvM.live hi a o ho
    rcases hcell with hcell | ⟨k, hcell⟩
    · have hli : i < o.cells.length := (List.getElem?_eq_some_iff.1 hcell).1
      refine ⟨{ s with mem := s.mem.set a (some { o with cells := o.cells.set i (.var v) }) }, ?_, ?_, rfl, ?_⟩
      · simp only [writeLoc, bind_eq (obj_eq ho), hcell, setObj]
      · refine InvM.update hi ho hp (CellOk.set (InvM.typed hi a o ho) hcell (by intro k h; exact h) _ _) fun b => ?_
        have h1 := cells_set hcell (.var v) b
        have h2 := hc b
        simp only [Obj.ptrs, Cell.ptrs, List.count_append] at h1 ⊢
        omega
      · simp [readLoc, bind_run, M.bind, obj, hl, hli, pure_run]
    · have hli : i < o.cells.length := (List.getElem?_eq_some_iff.1 hcell).1
      refine ⟨{ s with mem := s.mem.set a (some { o with cells := o.cells.set i (.pair k v) }) }, ?_, ?_, rfl, ?_⟩
      · simp only [writeLoc, bind_eq (obj_eq ho), hcell, setObj]
      · refine InvM.update hi ho hp (CellOk.set (InvM.typed hi a o ho) hcell (by intro k h; exact h) _ _) fun b => ?_
        have h1 := cells_set hcell (.pair k v) b
        have h2 := hc b
        simp only [Obj.ptrs, Cell.ptrs, List.count_append] at h1 ⊢
        omega
      · simp [readLoc, bind_run, M.bind, obj, hl, hli, pure_run]
  | key a i =>
    obtain ⟨-, o, ho, w, hcell⟩ := readLoc_key hr
    have hl : a < s.mem.length := (List.getElem?_eq_some_iff.1 ho).1
    have hp := InvM.live hi a o ho
    have hli : i < o.cells.length := (List.getElem?_eq_some_iff.1 hcell).1
    refine ⟨{ s with mem := s.mem.set a (some { o with cells := o.cells.set i (.pair v w) }) }, ?_, ?_, rfl, ?_⟩
    · simp only [writeLoc, bind_eq (obj_eq ho), hcell, setObj]
    · refine InvM.update hi ho hp (CellOk.set (InvM.typed hi a o ho) hcell (by intro k h; exact h) _ _) fun b => ?_
      have h1 := cells_set hcell (.pair v w) b
      have h2 := hc b
      simp only [Obj.ptrs, Cell.ptrs, List.count_append] at h1 ⊢
      omega
    · simp [readLoc, bind_run, M.bind, obj, hl, hli, pure_run]

/-- What every variable and every element holds is kept. -/
def Stab (s s' : State α) : Prop := ∀ l t, readLoc l s = .ok t s → readLoc l s' = .ok t s'

theorem Stab.of_mem {s : State α} {mem' : List (Option (Obj α))}
    (h : ∀ (a : Addr) (o : Obj α), s.mem[a]? = some (some o) → ∃ o' : Obj α, mem'[a]? = some (some o') ∧
      ∀ (i : Nat) (c : Cell α), o.cells[i]? = some c → (∀ x, c ≠ .raw x) → o'.cells[i]? = some c) :
    Stab s { s with mem := mem' } := by
  intro l t hr
  cases l with
  | slot n =>
    obtain ⟨-, hn⟩ := readLoc_slot hr
    simp [readLoc, hn]
  | cell a i =>
    obtain ⟨-, o, ho, hcell⟩ := readLoc_cell hr
    obtain ⟨o', ho', hcells⟩ := h a o ho
    rcases hcell with hcell | ⟨k, hcell⟩
    · have := hcells i _ hcell (by simp)
      simp [readLoc, bind_run, M.bind, obj, ho', this, pure_run]
    · have := hcells i _ hcell (by simp)
      simp [readLoc, bind_run, M.bind, obj, ho', this, pure_run]
  | key a i =>
    obtain ⟨-, o, ho, w, hcell⟩ := readLoc_key hr
    obtain ⟨o', ho', hcells⟩ := h a o ho
    have := hcells i _ hcell (by simp)
    simp [readLoc, bind_run, M.bind, obj, ho', this, pure_run]

theorem attachV_ok {s s' : State α} {v : V α} {own : List Addr} {u : Unit} (h : attachV v s = .ok u s')
    (hi : Inv s own) : Inv s' (v.ptr.toList ++ own) ∧ s'.stk = s.stk ∧ Stab s s' := by
  unfold attachV at h
  cases hp : v.ptr with
  | none =>
    rw [hp] at h
    cases h
    exact ⟨by simpa using hi, rfl, fun l t ht => ht⟩
  | some a =>
    rw [hp] at h
    obtain ⟨o, s1, ho, h2⟩ := bind_ok h
    obtain ⟨rfl, ho'⟩ := obj_ok ho
    simp only [setObj] at h2
    cases h2
    have hl : a < s1.mem.length := (List.getElem?_eq_some_iff.1 ho').1
    refine ⟨?_, rfl, ?_⟩
    · refine InvM.update hi ho' (Nat.succ_pos _) (InvM.typed hi a o ho') fun b => ?_
      simp only [Obj.ptrs, Option.toList, List.count_append, List.count_cons, List.count_nil]
      by_cases hab : a = b
      · subst hab
        simp
        omega
      · have : ¬ (a == b) = true := by simpa using hab
        simp [hab]
    · refine Stab.of_mem fun b p hb => ?_
      by_cases hab : a = b
      · subst hab
        rw [ho'] at hb
        cases hb
        exact ⟨_, List.getElem?_set_self hl, fun i c hc _ => hc⟩
      · exact ⟨p, by simp [hab, hb], fun i c hc _ => hc⟩

theorem attachV_nt (v : V α) : NT (attachV v) := by
  unfold attachV
  cases v.ptr with
  | none => exact NT.pure _
  | some a =>
    refine NT.bind (obj_nt a) fun o => ?_
    intro s e s'
    simp [setObj]

theorem attachV_keep {lk : Bool} (v : V α) : Keep lk (attachV v) [] (fun _ => v.ptr.toList) :=
  Keep.of_ok (attachV_nt v) fun s own b s' hi h => by
    obtain ⟨h1, h2, -⟩ := attachV_ok h (by simpa using hi)
    exact ⟨h1, by rw [h2]⟩

theorem copyV_keep {lk : Bool} (v : V α) : Keep lk (copyV v) [] (fun w => w.ptr.toList) := by
  refine (attachV_keep v).bind fun _ => Keep.pure v fun _ => rfl

theorem detachV_keep {lk : Bool} (v : V α) : Keep lk (detachV v) v.ptr.toList (fun _ => []) := by
  intro s own hi
  obtain ⟨mem', he, hi', -⟩ := detachV_ok hi
  rw [he]
  exact ⟨[], fun _ => rfl, by simpa using hi', rfl⟩

/-- Sharing: for a variable that is no reference. -/
theorem share_ok {l : Loc} {v t : V α} {s s' : State α} {own : List Addr} {u : Unit}
    (h : share l v s = .ok u s') (hr : readLoc l s = .ok t s) (ht : ∀ a i, t ≠ .ref a i) (hi : Inv s own) :
    Inv s' own ∧ s'.stk.length = s.stk.length := by
  unfold share at h
  rw [bind_eq hr] at h
  obtain ⟨_, s1, ha, h2⟩ := bind_ok h
  obtain ⟨hi1, hstk, hst⟩ := attachV_ok ha hi
  obtain ⟨s2, hw, hi2, hlen, -⟩ := writeLoc_ok (v := v) (own' := t.ptr.toList ++ own) (hst l t hr) hi1
    (fun a => by simp only [List.count_append]; omega)
  rw [bind_eq hw] at h2
  have hlen2 : s2.stk.length = s.stk.length := by rw [hlen, hstk]
  cases t with
  | arr a =>
    obtain ⟨mem', he, hi', -⟩ := detachV_ok hi2
    simp only at h2
    rw [he] at h2
    cases h2
    exact ⟨hi', hlen2⟩
  | nil => cases h2; exact ⟨by simpa [V.ptr] using hi2, hlen2⟩
  | bad k => cases h2; exact ⟨by simpa [V.ptr] using hi2, hlen2⟩
  | num k x => cases h2; exact ⟨by simpa [V.ptr] using hi2, hlen2⟩
  | ref a i => exact absurd rfl (ht a i)

theorem freshCell_ptrs (k : Kind) : (freshCell k : Cell α).ptrs = [] := by
  cases k <;> rfl

theorem freshCell_ok (k : Kind) : CellOk k (freshCell k : Cell α) := by
  cases k <;> simp [CellOk, freshCell]

theorem flatMap_ptrs_nil {cells : List (Cell α)} (h : ∀ c ∈ cells, Cell.ptrs c = []) :
    cells.flatMap Cell.ptrs = [] := by
  rw [List.flatMap_eq_nil_iff]
  exact h

theorem replicate_ptrs (n : Nat) (k : Kind) :
    (List.replicate n (freshCell k : Cell α)).flatMap Cell.ptrs = [] := by
  apply flatMap_ptrs_nil
  intro c hc
  rw [List.eq_of_mem_replicate hc]
  exact freshCell_ptrs k

/-- Resizing keeps type, count, pointers and the elements there are. -/
theorem resizeObj_ok [Env α] {o o' : Obj α} {n : Nat} (ht : o.Typed) (h : resizeObj o n = .ok o') :
    o'.kind = o.kind ∧ o'.rc = o.rc ∧ o'.size = n ∧ o'.Typed ∧ (∀ b, o'.ptrs.count b = o.ptrs.count b) ∧
      (∀ (i : Nat) (c : Cell α), o.cells[i]? = some c → (∀ x, c ≠ .raw x) → o'.cells[i]? = some c) := by
  unfold resizeObj at h
  cases hc : Alloc.allocSize (if o.kind = .char then (n : Int) + 1 else n) with
  | ok c =>
    rw [hc, Outcome.bind_ok] at h
    -- the places after growing
    have step : ∀ cells : List (Cell α), (∀ b, (cells.flatMap Cell.ptrs).count b = o.ptrs.count b) →
        (∀ c ∈ cells, CellOk o.kind c) →
        (∀ (i : Nat) (c : Cell α), o.cells[i]? = some c → (∀ x, c ≠ .raw x) → cells[i]? = some c) →
        (terminate o.kind cells n >>= fun cells => Outcome.ok { o with size := n, cells := cells }) = .ok o' →
        o'.kind = o.kind ∧ o'.rc = o.rc ∧ o'.size = n ∧ o'.Typed ∧ (∀ b, o'.ptrs.count b = o.ptrs.count b) ∧
          (∀ (i : Nat) (c : Cell α), o.cells[i]? = some c → (∀ x, c ≠ .raw x) → o'.cells[i]? = some c) := by
      intro cells hcnt hty hst h
      unfold terminate at h
      by_cases hk : o.kind = .char
      · rw [if_pos hk] at h
        by_cases hn : n < cells.length
        · rw [if_pos hn, Outcome.bind_ok] at h
          cases h
          have hraw : ∀ c ∈ cells, ∃ x, c = Cell.raw x := by
            intro c hc
            have := hty c hc
            rw [hk] at this
            cases c with
            | raw x => exact ⟨x, rfl⟩
            | var v => simp [CellOk] at this
            | pair k v => simp [CellOk] at this
          obtain ⟨x, hx⟩ := hraw cells[n] (List.getElem_mem hn)
          have hx' : cells[n]? = some (.raw x) := by rw [List.getElem?_eq_getElem hn, hx]
          refine ⟨rfl, rfl, rfl, ?_, ?_, ?_⟩
          · intro c hc
            rcases List.mem_or_eq_of_mem_set hc with h1 | h1
            · exact hty c h1
            · subst h1
              simp [CellOk, hk]
          · intro b
            have := cells_set hx' (.raw (some Env.nul)) b
            have h2 := hcnt b
            simp only [Cell.ptrs, List.count_nil] at this
            simp only [Obj.ptrs] at h2 ⊢
            omega
          · intro i c hc hnr
            have h1 := hst i c hc hnr
            obtain ⟨y, hy⟩ := hraw c (List.mem_of_getElem? h1)
            exact absurd hy (hnr y)
        · rw [if_neg hn] at h
          cases h
      · rw [if_neg hk, Outcome.bind_ok] at h
        cases h
        exact ⟨rfl, rfl, rfl, hty, hcnt, hst⟩
    unfold growCells at h
    by_cases h0 : o.cells.length = 0
    · rw [if_pos h0] at h
      have hnil : o.cells = [] := List.eq_nil_of_length_eq_zero h0
      by_cases hneg : c < 0
      · rw [if_pos hneg] at h
        cases h
      · rw [if_neg hneg, Outcome.bind_ok] at h
        refine step _ ?_ ?_ ?_ h
        · intro b
          rw [replicate_ptrs]
          simp [Obj.ptrs, hnil]
        · intro c hc
          rw [List.eq_of_mem_replicate hc]
          exact freshCell_ok _
        · intro i c hc
          rw [hnil] at hc
          simp at hc
    · rw [if_neg h0] at h
      by_cases hlt : (o.cells.length : Int) < c
      · rw [if_pos hlt, Outcome.bind_ok] at h
        refine step _ ?_ ?_ ?_ h
        · intro b
          rw [List.flatMap_append, replicate_ptrs]
          simp [Obj.ptrs]
        · intro c hc
          rcases List.mem_append.1 hc with h1 | h1
          · exact ht c h1
          · rw [List.eq_of_mem_replicate h1]
            exact freshCell_ok _
        · intro i c hc _
          rw [List.getElem?_append_left (List.getElem?_eq_some_iff.1 hc).1]
          exact hc
      · rw [if_neg hlt, Outcome.bind_ok] at h
        exact step _ (fun b => rfl) ht (fun i c hc _ => hc) h
  | thrown e => rw [hc] at h; cases h
  | ub u => rw [hc] at h; cases h
  | abort => rw [hc] at h; cases h
  | diverge => rw [hc] at h; cases h

theorem allocSize_nt (n : Int) (e : Exn) : Alloc.allocSize n ≠ .thrown e := by
  unfold Alloc.allocSize
  by_cases h : n < 0
  · rw [if_pos h]; simp
  · rw [if_neg h]
    simp only
    generalize (if n.toNat < Alloc.minSize then Alloc.minSize else n.toNat) = m
    split <;> (intro h; cases h)

theorem resizeObj_nt [Env α] (o : Obj α) (n : Nat) (e : Exn) : resizeObj o n ≠ .thrown e := by
  unfold resizeObj
  intro h
  cases hc : Alloc.allocSize (if o.kind = .char then (n : Int) + 1 else n) with
  | thrown e' => exact absurd hc (allocSize_nt _ _)
  | ub u => rw [hc] at h; cases h
  | abort => rw [hc] at h; cases h
  | diverge => rw [hc] at h; cases h
  | ok c =>
    rw [hc, Outcome.bind_ok] at h
    cases hg : growCells o.kind o.cells c with
    | thrown e' => unfold growCells at hg; split at hg <;> (try split at hg) <;> cases hg
    | ub u => rw [hg] at h; cases h
    | abort => rw [hg] at h; cases h
    | diverge => rw [hg] at h; cases h
    | ok cells =>
      rw [hg, Outcome.bind_ok] at h
      cases ht : terminate o.kind cells n with
      | thrown e' => unfold terminate at ht; split at ht <;> (try split at ht) <;> cases ht
      | ub u => rw [ht] at h; cases h
      | abort => rw [ht] at h; cases h
      | diverge => rw [ht] at h; cases h
      | ok cells => rw [ht, Outcome.bind_ok] at h; cases h

theorem liftO_nt {x : Outcome β} (h : ∀ e, x ≠ .thrown e) : NT (liftO x : M α β) := by
  intro s e s'
  unfold liftO
  cases x with
  | thrown e' => exact absurd rfl (h e')
  | _ => simp

theorem liftO_ok {x : Outcome β} {s s' : State α} {b : β} (h : liftO x s = .ok b s') : s' = s ∧ x = .ok b := by
  unfold liftO at h
  cases x <;> simp at h
  exact ⟨h.2.symm, by rw [h.1]⟩

theorem setObj_nt (a : Addr) (o : Obj α) : NT (setObj a o) := by
  intro s e s'
  simp [setObj]

theorem heapResize_nt [Env α] (a : Addr) (n : Nat) : NT (heapResize a n : M α Unit) :=
  NT.bind (obj_nt a) fun o => NT.bind (liftO_nt (resizeObj_nt o n)) fun o' => setObj_nt a o'

theorem heapResize_ok [Env α] {a : Addr} {n : Nat} {s s' : State α} {own : List Addr} {u : Unit}
    (h : heapResize a n s = .ok u s') (hi : Inv s own) : Inv s' own ∧ s'.stk = s.stk ∧ Stab s s' := by
  obtain ⟨o, s1, ho, h2⟩ := bind_ok h
  obtain ⟨rfl, ho'⟩ := obj_ok ho
  obtain ⟨o', s2, hr, h3⟩ := bind_ok h2
  obtain ⟨rfl, hr'⟩ := liftO_ok hr
  simp only [setObj] at h3
  cases h3
  obtain ⟨hk, hrc, -, hty, hpt, hst⟩ := resizeObj_ok (InvM.typed hi a o ho') hr'
  have hl : a < s2.mem.length := (List.getElem?_eq_some_iff.1 ho').1
  refine ⟨?_, rfl, ?_⟩
  · refine InvM.update hi ho' (by rw [hrc]; exact InvM.live hi a o ho') hty fun b => ?_
    rw [hrc, hpt b]
  · refine Stab.of_mem fun b p hb => ?_
    by_cases hab : a = b
    · subst hab
      rw [ho'] at hb
      cases hb
      exact ⟨_, by simp [hl], hst⟩
    · exact ⟨p, by simp [hab, hb], fun i c hc _ => hc⟩

theorem heapResize_keep [Env α] {lk : Bool} (a : Addr) (n : Nat) :
    Keep lk (heapResize a n : M α Unit) [] (fun _ => []) :=
  Keep.of_ok (heapResize_nt a n) fun s own b s' hi h => by
    obtain ⟨h1, h2, -⟩ := heapResize_ok h hi
    exact ⟨h1, by rw [h2]⟩

theorem newHeap_nt [Env α] (n : Nat) (k : Option Kind) : NT (newHeap n k : M α Addr) :=
  NT.bind (liftO_nt (resizeObj_nt _ n)) fun o => by intro s e s'; simp

theorem newObj_ok {s : State α} {o : Obj α} {own : List Addr} (hi : Inv s (o.ptrs ++ own)) (hrc : o.rc = 1)
    (hty : o.Typed) : Inv { s with mem := s.mem ++ [some o] } (s.mem.length :: own) ∧
      Stab s { s with mem := s.mem ++ [some o] } := by
  constructor
  · have : InvM (s.mem ++ [some o]) (s.mem.length :: (stkPtrs s.stk ++ own)) :=
      InvM.new (InvM.congr hi fun a => by simp only [List.count_append]; omega) hrc hty
    exact InvM.congr this fun a => by simp only [List.count_append, List.count_cons]; omega
  · refine Stab.of_mem fun b p hb => ⟨p, ?_, fun i c hc _ => hc⟩
    rw [List.getElem?_append_left (List.getElem?_eq_some_iff.1 hb).1]
    exact hb

theorem newHeap_ok [Env α] {n : Nat} {k : Option Kind} {s s' : State α} {b : Addr} {own : List Addr}
    (h : newHeap n k s = .ok b s') (hi : Inv s own) :
    Inv s' (b :: own) ∧ s'.stk = s.stk ∧ Stab s s' := by
  obtain ⟨o, s1, ho, h2⟩ := bind_ok h
  obtain ⟨rfl, ho'⟩ := liftO_ok ho
  cases h2
  obtain ⟨hk, hrc, -, hty, hpt, -⟩ := resizeObj_ok (by intro c hc; simp at hc) ho'
  obtain ⟨h1, h2⟩ := newObj_ok (s := s1) (o := o) (own := own) (hi.congr fun a => by
    rw [List.count_append, hpt a]; simp [Obj.ptrs]) hrc hty
  exact ⟨h1, rfl, h2⟩

theorem setRaw_nt (a : Addr) (i : Nat) (x : α) : NT (setRaw a i x) := by
  refine NT.bind (obj_nt a) fun o => ?_
  split <;> first | exact NT.undef | exact setObj_nt _ _

theorem setRaw_ok {a : Addr} {i : Nat} {x : α} {s s' : State α} {own : List Addr} {u : Unit}
    (h : setRaw a i x s = .ok u s') (hi : Inv s own) : Inv s' own ∧ s'.stk = s.stk ∧ Stab s s' := by
  obtain ⟨o, s1, ho, h2⟩ := bind_ok h
  obtain ⟨rfl, ho'⟩ := obj_ok ho
  cases hy : o.cells[i]? with
  | none => rw [hy] at h2; cases h2
  | some c =>
   rw [hy] at h2
   cases c with
   | var w => cases h2
   | pair k w => cases h2
   | raw y =>
    simp only [setObj] at h2
    cases h2
    have hl : a < s1.mem.length := (List.getElem?_eq_some_iff.1 ho').1
    refine ⟨?_, rfl, ?_⟩
    · refine InvM.update hi ho' (InvM.live hi a o ho')
        (CellOk.set (InvM.typed hi a o ho') hy (by intro k h; exact h) _ _) fun b => ?_
      have := cells_set hy (.raw (some x)) b
      simp only [Cell.ptrs, List.count_nil] at this
      simp only [Obj.ptrs]
      omega
    · refine Stab.of_mem fun b p hb => ?_
      by_cases hab : a = b
      · subst hab
        rw [ho'] at hb
        cases hb
        refine ⟨_, List.getElem?_set_self hl, fun j c hc hnr => ?_⟩
        simp only
        rw [List.getElem?_set]
        by_cases hij : i = j
        · subst hij
          rw [hy] at hc
          cases hc
          exact absurd rfl (hnr y)
        · simp [hij, hc]
      · exact ⟨p, by simp [hab, hb], fun i c hc _ => hc⟩

theorem setRaw_keep {lk : Bool} (a : Addr) (i : Nat) (x : α) :
    Keep lk (setRaw a i x) [] (fun _ => []) :=
  Keep.of_ok (setRaw_nt a i x) fun s own b s' hi h => by
    obtain ⟨h1, h2, -⟩ := setRaw_ok h hi
    exact ⟨h1, by rw [h2]⟩

theorem detachV_nt (v : V α) : NT (detachV v) := by
  refine NT.bind getMem_nt fun mem => NT.bind (liftO_nt ?_) fun m => by intro s e s'; simp [setMem]
  intro e
  have : ∀ (n : Nat) (p : List Addr) (m : List (Option (Obj α))), release n p m ≠ .thrown e := by
    intro n
    induction n with
    | zero => intro p m; cases p <;> simp [release]
    | succ n ih =>
      intro p m
      cases p with
      | nil => simp [release]
      | cons a p =>
        simp only [release]
        split
        · split
          · simp
          · split <;> exact ih _ _
        · simp
  exact this _ _ _

theorem writeLoc_nt (l : Loc) (v : V α) : NT (writeLoc l v) := by
  cases l with
  | slot n => intro s e s'; simp only [writeLoc]; split <;> simp
  | cell a i =>
    refine NT.bind (obj_nt a) fun o => ?_
    split <;> first | exact setObj_nt _ _ | exact NT.undef
  | key a i =>
    refine NT.bind (obj_nt a) fun o => ?_
    split <;> first | exact setObj_nt _ _ | exact NT.undef

theorem share_nt (l : Loc) (v : V α) : NT (share l v) := by
  refine NT.bind (readLoc_nt l) fun t => NT.bind (attachV_nt v) fun _ => NT.bind (writeLoc_nt l v) fun _ => ?_
  split <;> first | exact detachV_nt _ | exact NT.pure _

/-- The normal course of dereferencing. -/
theorem dereference_ok [Env α] {l : Loc} {s s' : State α} {own : List Addr} {b : Loc}
    (h : dereference l s = .ok b s') (hi : Inv s own) : Inv s' own ∧ s'.stk.length = s.stk.length := by
  obtain ⟨t, s1, ht, h2⟩ := bind_ok h
  obtain rfl := readLoc_ok ht
  split at h2
  · next a i =>
    obtain ⟨r, s2, hr, h3⟩ := bind_ok h2
    have hro := derefLoc_ro a i s1
    rw [hr] at hro
    obtain rfl := hro
    split at h3
    · next r' =>
      by_cases hrl : r' = l
      · rw [if_pos hrl] at h3
        obtain ⟨o, s3, -, h4⟩ := bind_ok h3
        obtain ⟨_, s4, -, h5⟩ := bind_ok h4
        cases h5
      · rw [if_neg hrl] at h3
        obtain ⟨_, s3, hw, h4⟩ := bind_ok h3
        obtain ⟨s3', hw', hi3, hlen3, hrd3⟩ := writeLoc_ok (v := .arr a) (own' := own) ht hi (fun b => rfl)
        rw [hw'] at hw
        cases hw
        obtain ⟨w, s4, hrw, h5⟩ := bind_ok h4
        obtain rfl := readLoc_ok hrw
        split at h5
        · cases h5
        · obtain ⟨_, s5, ha, h6⟩ := bind_ok h5
          obtain ⟨hi5, hstk5, hst5⟩ := attachV_ok ha hi3
          obtain ⟨_, s6, hsh, h7⟩ := bind_ok h6
          obtain ⟨hi6, hlen6⟩ := share_ok hsh (hst5 l _ hrd3) (by intro a i; simp) hi5
          obtain ⟨_, s7, hd, h8⟩ := bind_ok h7
          obtain ⟨mem', he, hi7, -⟩ := detachV_ok hi6
          rw [he] at hd
          cases hd
          cases h8
          exact ⟨hi7, by show s6.stk.length = _; rw [hlen6, hstk5, hlen3]⟩
    · obtain ⟨o, s3, ho, h4⟩ := bind_ok h3
      obtain ⟨rfl, ho'⟩ := obj_ok ho
      obtain ⟨x, s4, hx, h5⟩ := bind_ok h4
      have hro := rawAt_ro a i s3
      rw [hx] at hro
      obtain rfl := hro
      split at h5
      · obtain ⟨nb, s5, hn, h6⟩ := bind_ok h5
        obtain ⟨hi5, hstk5, hst5⟩ := newHeap_ok hn hi
        obtain ⟨_, s6, hs, h7⟩ := bind_ok h6
        obtain ⟨hi6, hstk6, hst6⟩ := setRaw_ok hs hi5
        obtain ⟨_, s7, hw, h8⟩ := bind_ok h7
        obtain ⟨s7', hw', hi7, hlen7, -⟩ := writeLoc_ok (v := .arr nb) (own' := a :: own)
          (hst6 l _ (hst5 l _ ht)) hi6 (fun b => by
            simp only [V.ptr, Option.toList, List.count_cons, List.count_nil]; omega)
        rw [hw'] at hw
        cases hw
        obtain ⟨_, s8, hd, h9⟩ := bind_ok h8
        obtain ⟨mem', he, hi8, -⟩ := detachV_ok (v := V.arr a) (own := own) (by simpa [V.ptr] using hi7)
        rw [he] at hd
        cases hd
        cases h9
        exact ⟨hi8, by show s7.stk.length = _; rw [hlen7, hstk6, hstk5]⟩
      · obtain ⟨_, s7, hw, h8⟩ := bind_ok h5
        obtain ⟨s7', hw', hi7, hlen7, -⟩ := writeLoc_ok (v := .num o.kind x) (own' := a :: own)
          ht hi (fun b => by
            simp only [V.ptr, Option.toList, List.count_cons, List.count_nil]; omega)
        rw [hw'] at hw
        cases hw
        obtain ⟨_, s8, hd, h9⟩ := bind_ok h8
        obtain ⟨mem', he, hi8, -⟩ := detachV_ok (v := V.arr a) (own := own) (by simpa [V.ptr] using hi7)
        rw [he] at hd
        cases hd
        cases h9
        exact ⟨hi8, by show s7.stk.length = _; rw [hlen7]⟩
  · cases h2
    exact ⟨hi, rfl⟩

theorem bind_thrown {m : M α β} {f : β → M α γ} {s s' : State α} {e : Exn} (h : (m >>= f) s = .thrown e s')
    (hn : NT m) : ∃ b s1, m s = .ok b s1 ∧ f b s1 = .thrown e s' := by
  rw [bind_run] at h
  unfold M.bind at h
  cases hm : m s with
  | ok b s1 => rw [hm] at h; exact ⟨b, s1, rfl, h⟩
  | thrown e s1 => exact absurd hm (hn s e s1)
  | ub u => rw [hm] at h; cases h
  | abort => rw [hm] at h; cases h
  | diverge => rw [hm] at h; cases h

/-- Dereferencing a var that refers to itself leaks one count. -/
theorem dereference_thrown [Env α] {l : Loc} {s s' : State α} {own : List Addr} {e : Exn}
    (h : dereference l s = .thrown e s') (hi : Inv s own) :
    e = selfRef ∧ ∃ a, Inv s' (a :: own) ∧ s'.stk.length = s.stk.length := by
  obtain ⟨t, s1, ht, h2⟩ := bind_thrown h (readLoc_nt l)
  obtain rfl := readLoc_ok ht
  split at h2
  · next a i =>
    obtain ⟨r, s2, hr, h3⟩ := bind_thrown h2 (derefLoc_nt a i)
    have hro := derefLoc_ro a i s1
    rw [hr] at hro
    obtain rfl := hro
    split at h3
    · next r' =>
      by_cases hrl : r' = l
      · rw [if_pos hrl] at h3
        obtain ⟨o, s3, ho, h4⟩ := bind_thrown h3 (obj_nt a)
        obtain ⟨rfl, -⟩ := obj_ok ho
        obtain ⟨_, s4, hw, h5⟩ := bind_thrown h4 (writeLoc_nt _ _)
        obtain ⟨s3', hw', hi3, hlen3, -⟩ := writeLoc_ok (v := .bad o.kind) (own' := a :: own) ht hi (fun b => by
          simp only [V.ptr, Option.toList, List.count_cons, List.count_nil]; omega)
        rw [hw'] at hw
        cases hw
        cases h5
        exact ⟨rfl, a, hi3, hlen3⟩
      · exfalso
        rw [if_neg hrl] at h3
        revert h3
        refine NT.bind (writeLoc_nt _ _) (fun _ => NT.bind (readLoc_nt _) fun w => ?_) _ _ _
        split
        · exact NT.undef
        · exact NT.bind (attachV_nt _) fun _ => NT.bind (share_nt _ _) fun _ =>
            NT.bind (detachV_nt _) fun _ => NT.pure _
    · exfalso
      revert h3
      refine NT.bind (obj_nt _) (fun o => NT.bind (rawAt_nt _ _) fun x => ?_) _ _ _
      split
      · exact NT.bind (newHeap_nt _ _) fun _ => NT.bind (setRaw_nt _ _ _) fun _ =>
          NT.bind (writeLoc_nt _ _) fun _ => NT.bind (detachV_nt _) fun _ => NT.pure _
      · exact NT.bind (writeLoc_nt _ _) fun _ => NT.bind (detachV_nt _) fun _ => NT.pure _
  · cases h2

theorem dereference_keep [Env α] {lk : Bool} (l : Loc) : Keep lk (dereference l : M α Loc) [] (fun _ => []) := by
  intro s own hi
  cases h : (dereference l : M α Loc) s with
  | ok b s' =>
    obtain ⟨h1, h2⟩ := dereference_ok h hi
    exact ⟨[], fun _ => rfl, h1, h2⟩
  | thrown e s' =>
    obtain ⟨he, a, h1, h2⟩ := dereference_thrown h hi
    exact ⟨[a], fun _ hne => absurd he hne, h1, h2⟩
  | ub u => trivial
  | abort => trivial
  | diverge => trivial

/-! ## Assignment and element access -/

theorem shareChecked_keep [Env α] {lk : Bool} (l : Loc) (v : V α) :
    Keep lk (do
      match ← readLoc l with
      | .ref _ _ => undef .badPointer
      | _ => do
        share l v
        let _ ← dereference l
        pure () : M α Unit) [] (fun _ => []) := by
  intro s own hi
  cases hr : readLoc l s with
  | ok t s1 =>
    obtain rfl := readLoc_ok hr
    rw [bind_eq hr]
    by_cases ht : ∃ a i, t = .ref a i
    · obtain ⟨a, i, rfl⟩ := ht
      trivial
    · have ht' : ∀ a i, t ≠ .ref a i := fun a i h => ht ⟨a, i, h⟩
      have goal : Post lk s1.stk.length own (fun _ => []) ((do
          share l v
          let _ ← dereference l
          pure () : M α Unit) s1) := by
        cases hs : share l v s1 with
        | ok u s2 =>
          obtain ⟨hi2, hlen⟩ := share_ok hs hr ht' hi
          rw [bind_eq hs]
          have := ((dereference_keep (lk := lk) l).bind (f := fun _ => pure ())
            (fun _ => Keep.pure () (post := fun _ => []) fun _ => rfl)) s2 own hi2
          rw [hlen] at this
          exact this
        | thrown e s2 => exact absurd hs (share_nt l v s1 e s2)
        | ub u => simp [bind_run, M.bind, hs, Post]
        | abort => simp [bind_run, M.bind, hs, Post]
        | diverge => simp [bind_run, M.bind, hs, Post]
      cases t with
      | ref a i => exact absurd rfl (ht' a i)
      | nil => exact goal
      | bad k => exact goal
      | num k x => exact goal
      | arr a => exact goal
  | thrown e s1 => exact absurd hr (readLoc_nt l s e s1)
  | ub u => simp [bind_run, M.bind, hr, Post]
  | abort => simp [bind_run, M.bind, hr, Post]
  | diverge => simp [bind_run, M.bind, hr, Post]

theorem assignPlain_keep [Env α] {lk : Bool} (l : Loc) (v : V α) :
    Keep lk (assignPlain l v) v.ptr.toList (fun _ => []) :=
  Keep.withVar fun _ => shareChecked_keep l v

theorem assign_keep [Env α] {lk : Bool} (l : Loc) (v : V α) :
    Keep lk (assign l v) v.ptr.toList (fun _ => []) := by
  refine (readLoc_ro l).bind_keep' (readLoc_nt l) fun t => ?_
  split
  · refine Keep.withVar fun _ => (obj_ro _).bind_keep fun o => ?_
    split
    · exact (attachV_keep v).bind fun _ => assignPlain_keep _ v
    · exact (attachV_keep v).bind fun _ => assignPlain_keep _ v
    · exact (castV_ro _ v).bind_keep fun x => setRaw_keep _ _ x
  · exact assignPlain_keep l v

theorem reference_keep {lk : Bool} (v : V α) (i : Int) :
    Keep lk (reference v i) [] (fun w => w.ptr.toList) := by
  refine (typeV_ro v).bind_keep fun k => ?_
  cases k with
  | some k => exact Keep.throwE
  | none =>
    cases v with
    | nil => exact Keep.undef
    | bad k => exact Keep.undef
    | num k x => exact Keep.undef
    | arr a =>
      simp only
      split
      · exact Keep.undef
      · refine (attachV_keep _).bind fun _ => Keep.pure _ fun b => ?_
        split <;> rfl
    | ref a j =>
      simp only
      split
      · exact Keep.undef
      · refine (attachV_keep _).bind fun _ => Keep.pure _ fun b => ?_
        split <;> rfl

theorem at'_keep [Env α] {lk : Bool} (v : V α) (i : Int) :
    Keep lk (at' v i) [] (fun w => w.ptr.toList) := by
  refine (attachV_keep v).bind fun _ => Keep.withVar fun l => ?_
  refine (dereference_keep l).bind fun _ => (readLoc_ro l).bind_keep fun w => ?_
  split
  · exact Keep.throwE
  · exact reference_keep _ i
  · split
    · exact copyV_keep _
    · exact Keep.throwE

theorem setAt_keep [Env α] {lk : Bool} (t : V α) (i : Int) (v : V α) :
    Keep lk (setAt t i v) v.ptr.toList (fun _ => []) :=
  Keep.withVar fun _ => (at'_keep t i).bind fun _ => Keep.withVar fun lr =>
    (attachV_keep v).bind fun _ => assign_keep lr v

theorem wrap_keep [Env α] {lk : Bool} (l : Loc) (n : Nat) : Keep lk (wrap l n : M α Unit) [] (fun _ => []) := by
  intro s own hi
  simp only [List.nil_append] at hi
  unfold wrap
  cases hr : readLoc l s with
  | ok t s1 =>
    obtain rfl := readLoc_ok hr
    rw [bind_eq hr]
    have step : ∀ (k : Option Kind) (f : Addr → M α Unit), (∀ b, t.ptr = none ∧ Keep lk (f b) [] (fun _ => [])) →
        Post lk s1.stk.length own (fun _ => []) ((do
          let b ← newHeap n k
          writeLoc l (.arr b)
          f b : M α Unit) s1) := by
      intro k f hf
      cases hn : newHeap n k s1 with
      | ok b s2 =>
        obtain ⟨hi2, hstk, hst⟩ := newHeap_ok hn hi
        rw [bind_eq hn]
        obtain ⟨s3, hw, hi3, hlen, -⟩ := writeLoc_ok (v := .arr b) (own' := own) (hst l t hr) hi2 (fun a => by
          have h0 := (hf b).1
          rw [h0]
          simp [V.ptr, List.count_cons])
        rw [bind_eq hw]
        have := (hf b).2 s3 own hi3
        rw [hlen, hstk] at this
        exact this
      | thrown e s2 => exact absurd hn (newHeap_nt n k s1 e s2)
      | ub u => simp [bind_run, M.bind, hn, Post]
      | abort => simp [bind_run, M.bind, hn, Post]
      | diverge => simp [bind_run, M.bind, hn, Post]
    cases t with
    | nil =>
      have := step none (fun _ => pure ()) fun b => ⟨rfl, Keep.pure () fun _ => rfl⟩
      simp only [bind_pure_unit] at this
      exact this
    | num k x => exact step (some k) (fun b => setAt (.arr b) 0 (.num k x)) fun b => ⟨rfl, setAt_keep _ _ _⟩
    | bad k => exact step (some k) (fun b => setAt (.arr b) 0 (.bad k)) fun b => ⟨rfl, setAt_keep _ _ _⟩
    | arr a => trivial
    | ref a i => trivial
  | thrown e s1 => exact absurd hr (readLoc_nt l s e s1)
  | ub u => simp [bind_run, M.bind, hr, Post]
  | abort => simp [bind_run, M.bind, hr, Post]
  | diverge => simp [bind_run, M.bind, hr, Post]

theorem resize_keep [Env α] {lk : Bool} (l : Loc) (n : Int) : Keep lk (resize l n : M α Unit) [] (fun _ => []) := by
  unfold resize
  split
  · exact Keep.abort
  · refine (dereference_keep l).bind fun r => (readLoc_ro r).bind_keep fun v => ?_
    split
    · refine (readLoc_ro l).bind_keep fun w => (heapOf_ro w).bind_keep fun h => ?_
      split
      · exact heapResize_keep _ _
      · exact Keep.undef
    · exact wrap_keep _ _
    · split
      · exact wrap_keep _ _
      · exact Keep.pure _ fun _ => rfl
    · split
      · exact wrap_keep _ _
      · exact Keep.pure _ fun _ => rfl
    · exact Keep.undef

theorem array_keep [Env α] {lk : Bool} (l : Loc) : Keep lk (array l : M α Unit) [] (fun _ => []) := by
  refine (dereference_keep l).bind fun r => (readLoc_ro r).bind_keep fun v => ?_
  split
  · exact Keep.pure _ fun _ => rfl
  · exact (wrap_keep _ _).bind fun _ => (readLoc_ro r).bind_keep fun w => setAt_keep _ _ .nil
  · exact wrap_keep _ _

theorem presize_keep [Env α] {lk : Bool} (l : Loc) (n : Int) : Keep lk (presize l n : M α Unit) [] (fun _ => []) :=
  (readLoc_ro l).bind_keep fun v => (sizeV_ro v).bind_keep fun m => (resize_keep l n).bind fun _ => resize_keep l m

theorem fillRaw_keep {lk : Bool} (a : Addr) (xs : List α) : ∀ i, Keep lk (fillRaw a i xs) [] (fun _ => []) := by
  induction xs with
  | nil => exact fun i => Keep.pure _ fun _ => rfl
  | cons x xs ih => exact fun i => (setRaw_keep a i x).bind fun _ => ih (i + 1)

theorem heapAppend_keep [Env α] {lk : Bool} (a : Addr) (k : Kind) (xs : List α) : Keep lk (heapAppend a k xs) [] (fun _ => []) := by
  refine (obj_ro a).bind_keep fun o => (heapResize_keep a _).bind fun _ => ?_
  split
  · exact fillRaw_keep a xs _
  · exact Keep.undef

theorem append_keep [Env α] {lk : Bool} (l : Loc) (k : Kind) (xs : List α) : Keep lk (append l k xs) [] (fun _ => []) := by
  refine (array_keep l).bind fun _ => (readLoc_ro l).bind_keep fun v => (heapOf_ro v).bind_keep fun x => ?_
  split
  · exact heapAppend_keep _ k xs
  · exact Keep.undef

theorem indexPlain_keep [Env α] {lk : Bool} (l : Loc) (i : Int) :
    Keep lk (indexPlain l i : M α (V α)) [] (fun w => w.ptr.toList) := by
  unfold indexPlain
  split
  · exact Keep.throwE
  · refine (readLoc_ro l).bind_keep fun w => (sizeV_ro w).bind_keep fun n => ?_
    have tail : Keep lk (do array l; reference (← readLoc l) i : M α (V α)) [] (fun w => w.ptr.toList) :=
      (array_keep l).bind fun _ => (readLoc_ro l).bind_keep fun v => reference_keep v i
    split
    · exact (resize_keep l _).bind fun _ => tail
    · exact (Keep.pure () (post := fun _ => []) fun _ => rfl).bind fun _ => tail

theorem index_keep [Env α] {lk : Bool} (l : Loc) (i : Int) :
    Keep lk (index l i : M α (V α)) [] (fun w => w.ptr.toList) := by
  refine (readLoc_ro l).bind_keep fun v => ?_
  split
  · split
    · exact Keep.throwE
    · refine (derefLoc_ro _ _).bind_keep fun r => ?_
      split
      · refine (readLoc_ro _).bind_keep fun w => ?_
        split
        · exact Keep.undef
        · exact indexPlain_keep _ i
      · exact Keep.throwE
  · exact indexPlain_keep l i

theorem setIndex_keep [Env α] {lk : Bool} (l : Loc) (i : Int) (v : V α) :
    Keep lk (setIndex l i v) v.ptr.toList (fun _ => []) :=
  Keep.withVar fun _ => (index_keep l i).bind fun _ => Keep.withVar fun lr =>
    (attachV_keep v).bind fun _ => assign_keep lr v

theorem push_keep [Env α] {lk : Bool} (l : Loc) (v : V α) :
    Keep lk (push l v) v.ptr.toList (fun _ => []) := by
  refine Keep.withVar fun _ => (readLoc_ro l).bind_keep fun t => (definedV_ro t).bind_keep fun d => ?_
  have tail : Keep lk (do attachV v; setIndex l (← sizeV t) v : M α Unit) [] (fun _ => []) :=
    (attachV_keep v).bind fun _ => (sizeV_ro t).bind_keep' (sizeV_nt t) fun n => setIndex_keep l n v
  split
  · refine (typeV_ro v).bind_keep fun k => ?_
    split
    · exact (attachV_keep v).bind fun _ => assign_keep l v
    · exact tail
  · refine (typeV_ro t).bind_keep fun k => (typeV_ro v).bind_keep fun k' => (typeV_ro t).bind_keep fun k'' => ?_
    split
    · exact Keep.throwE
    · exact tail

theorem pop_keep [Env α] {lk : Bool} (l : Loc) : Keep lk (pop l : M α (V α)) [] (fun w => w.ptr.toList) := by
  refine (readLoc_ro l).bind_keep fun t => (sizeV_ro t).bind_keep fun n => (at'_keep t _).bind fun r => ?_
  refine Keep.withVar fun lr => (resize_keep l _).bind fun _ => (readLoc_ro lr).bind_keep fun w => copyV_keep w

theorem attachAll_keep {lk : Bool} (l : List Addr) : Keep lk (attachAll l : M α Unit) [] (fun _ => l) := by
  induction l with
  | nil => exact Keep.pure _ fun _ => rfl
  | cons a l ih =>
    intro s own hi
    unfold attachAll
    cases ha : (attachV (.arr a) : M α Unit) s with
    | ok u s1 =>
      obtain ⟨hi1, hstk, -⟩ := attachV_ok ha hi
      rw [bind_eq ha]
      have := ih s1 (a :: own) hi1
      rw [hstk] at this
      cases hr : (attachAll l : M α Unit) s1 with
      | ok b s2 =>
        rw [hr] at this
        obtain ⟨L, h1, h2, h3⟩ := this
        exact ⟨L, h1, h2.congr fun b => by simp [List.count_append, List.count_cons]; omega, h3⟩
      | thrown e s2 =>
        exfalso
        have hnt : ∀ l : List Addr, NT (attachAll l : M α Unit) := by
          intro l
          induction l with
          | nil => exact NT.pure _
          | cons a l ih => exact NT.bind (attachV_nt _) fun _ => ih
        exact hnt l s1 e s2 hr
      | ub u => trivial
      | abort => trivial
      | diverge => trivial
    | thrown e s1 => exact absurd ha (attachV_nt _ s e s1)
    | ub u => simp [bind_run, M.bind, ha, Post]
    | abort => simp [bind_run, M.bind, ha, Post]
    | diverge => simp [bind_run, M.bind, ha, Post]

theorem copyObj_ok [Env α] {o o' : Obj α} (ht : o.Typed) (h : copyObj o = .ok o') :
    o'.rc = 1 ∧ o'.Typed ∧ o'.kind = o.kind ∧ o'.size = o.size := by
  unfold copyObj at h
  cases hr : resizeObj (⟨o.kind, 0, 1, []⟩ : Obj α) o.size with
  | ok p =>
    obtain ⟨hk, hrc, hsz, hty, -, -⟩ := resizeObj_ok (by intro c hc; exact absurd hc List.not_mem_nil) hr
    simp only at hk hrc
    rw [hr, Outcome.bind_ok] at h
    have h' : (if o.size ≤ o.cells.length ∧ o.size ≤ p.cells.length then
        Outcome.ok { p with cells := o.cells.take o.size ++ p.cells.drop o.size }
      else .ub .outOfBounds) = .ok o' := by
      cases hkk : o.kind <;> rw [hkk] at h <;> first | exact h | (cases h)
    split at h'
    · cases h'
      refine ⟨hrc, ?_, hk, hsz⟩
      intro c hc
      rcases List.mem_append.1 hc with h1 | h1
      · have := ht c (List.mem_of_mem_take h1)
        simpa only [hk] using this
      · exact hty c (List.mem_of_mem_drop h1)
    · cases h'
  | thrown e => rw [hr] at h; cases h
  | ub u => rw [hr] at h; cases h
  | abort => rw [hr] at h; cases h
  | diverge => rw [hr] at h; cases h

theorem copy_keep [Env α] {lk : Bool} (v : V α) : Keep lk (copy v) [] (fun w => w.ptr.toList) := by
  refine (heapOf_ro v).bind_keep fun h => ?_
  split
  · exact copyV_keep v
  · next a =>
    intro s own hi
    simp only [List.nil_append] at hi
    cases ho : (obj a : M α _) s with
    | ok o s1 =>
      obtain ⟨rfl, ho'⟩ := obj_ok ho
      rw [bind_eq ho]
      cases hc : copyObj o with
      | ok o' =>
        obtain ⟨hrc, hty, -, -⟩ := copyObj_ok (InvM.typed hi a o ho') hc
        have hl : (liftO (copyObj o) : M α _) s1 = .ok o' s1 := by simp [liftO, hc]
        rw [hc] at hl
        rw [bind_eq hl]
        have := attachAll_keep (α := α) (lk := lk) o'.ptrs s1 own hi
        cases hat : (attachAll o'.ptrs : M α Unit) s1 with
        | ok b s2 =>
          rw [hat] at this
          obtain ⟨L, h1, h2, h3⟩ := this
          rw [bind_eq hat]
          obtain ⟨h4, -⟩ := newObj_ok h2 hrc hty
          exact ⟨L, h1, by simpa [V.ptr] using h4, h3⟩
        | thrown e s2 =>
          rw [hat] at this
          simp only [bind_run, M.bind, hat]
          exact this
        | ub u => simp [bind_run, M.bind, hat, Post]
        | abort => simp [bind_run, M.bind, hat, Post]
        | diverge => simp [bind_run, M.bind, hat, Post]
      | thrown e =>
        simp only [bind_run, M.bind, liftO]
        exact ⟨[], fun _ _ => rfl, hi, rfl⟩
      | ub u => simp [bind_run, M.bind, liftO, Post]
      | abort => simp [bind_run, M.bind, liftO, Post]
      | diverge => simp [bind_run, M.bind, liftO, Post]
    | thrown e s1 => exact absurd ho (obj_nt _ s e s1)
    | ub u => simp [bind_run, M.bind, ho, Post]
    | abort => simp [bind_run, M.bind, ho, Post]
    | diverge => simp [bind_run, M.bind, ho, Post]

theorem moveUp_keep [Env α] {lk : Bool} (l : Loc) (d i n : Nat) :
    Keep lk (moveUp l d i n : M α Unit) [] (fun _ => []) := by
  induction n generalizing i with
  | zero => exact Keep.pure _ fun _ => rfl
  | succ n ih =>
    exact (readLoc_ro l).bind_keep fun t => (at'_keep t _).bind fun x => (setAt_keep t _ x).bind fun _ => ih _

theorem copyIn_keep [Env α] {lk : Bool} (l lv : Loc) (p : Int) (i n : Nat) :
    Keep lk (copyIn l lv p i n : M α Unit) [] (fun _ => []) := by
  induction n generalizing i with
  | zero => exact Keep.pure _ fun _ => rfl
  | succ n ih =>
    refine (readLoc_ro lv).bind_keep fun t => (sizeV_ro t).bind_keep fun m => ?_
    split
    · exact (index_keep lv _).bind fun x => (readLoc_ro l).bind_keep' (readLoc_nt l) fun t' =>
        (setAt_keep t' _ x).bind fun _ => ih _
    · exact Keep.pure _ fun _ => rfl

theorem movePairsUp_keep [Env α] {lk : Bool} (l : Loc) (i n : Nat) :
    Keep lk (movePairsUp l i n : M α Unit) [] (fun _ => []) := by
  induction n generalizing i with
  | zero => exact Keep.pure _ fun _ => rfl
  | succ n ih =>
    refine (readLoc_ro l).bind_keep fun t => (heapOf_ro t).bind_keep fun h => ?_
    split
    · exact Keep.undef
    · refine (obj_ro _).bind_keep fun o => ?_
      split
      · exact Keep.throwE
      · split
        · exact Keep.throwE
        · exact (readLoc_ro _).bind_keep fun k => (attachV_keep k).bind fun _ =>
            (assignPlain_keep _ k).bind fun _ => (at'_keep t _).bind fun x =>
              (setAt_keep t _ x).bind fun _ => ih _

theorem insert_keep [Env α] {lk : Bool} (l : Loc) (v : V α) (p : Nat) :
    Keep lk (insert l v p) v.ptr.toList (fun _ => []) := by
  refine Keep.withVar fun lv => (readLoc_ro l).bind_keep fun t => (sizeV_ro t).bind_keep fun n => ?_
  split
  · exact Keep.throwE
  · refine RO.bind_keep (m := kindAt l) ?_ fun kind => ?_
    · refine RO.bind (readLoc_ro l) fun w => RO.bind (heapOf_ro w) fun h => ?_
      split
      · exact RO.pure _
      · exact RO.bind (obj_ro _) fun o => RO.pure _
    · split
      · exact (resize_keep l _).bind fun _ => (moveUp_keep _ _ _ _).bind fun _ => (attachV_keep v).bind fun _ =>
          (readLoc_ro l).bind_keep' (readLoc_nt l) fun w => setAt_keep w _ v
      · refine (resize_keep l _).bind fun _ => (movePairsUp_keep _ _ _).bind fun _ =>
          (readLoc_ro l).bind_keep fun w => (heapOf_ro w).bind_keep fun h => ?_
        split
        · exact Keep.undef
        · exact (attachV_keep v).bind fun _ => (assignPlain_keep _ v).bind fun _ =>
            (readLoc_ro l).bind_keep fun w' => setAt_keep w' _ .nil
      · exact (sizeV_ro v).bind_keep fun m => (resize_keep l _).bind fun _ =>
          (readLoc_ro l).bind_keep fun w => (sizeV_ro w).bind_keep fun n' =>
          (readLoc_ro lv).bind_keep fun w' => (sizeV_ro w').bind_keep fun m' =>
          (moveUp_keep _ _ _ _).bind fun _ => (readLoc_ro lv).bind_keep fun w'' =>
          (sizeV_ro w'').bind_keep fun m'' => copyIn_keep _ _ _ _ _

theorem moveDown_keep [Env α] {lk : Bool} (l : Loc) (i n : Nat) :
    Keep lk (moveDown l i n : M α Unit) [] (fun _ => []) := by
  induction n generalizing i with
  | zero => exact Keep.pure _ fun _ => rfl
  | succ n ih =>
    exact (readLoc_ro l).bind_keep fun t => (at'_keep t _).bind fun x => (setAt_keep t _ x).bind fun _ => ih _

theorem remove_keep [Env α] {lk : Bool} (l : Loc) (i : Nat) :
    Keep lk (remove l i : M α (V α)) [] (fun w => w.ptr.toList) := by
  refine (readLoc_ro l).bind_keep fun t => (sizeV_ro t).bind_keep fun n => ?_
  split
  · exact Keep.throwE
  · refine (at'_keep t _).bind fun x => (Keep.withVar (post := fun w => w.ptr.toList) fun lx =>
      (readLoc_ro lx).bind_keep fun w => copy_keep w).bind fun r => ?_
    exact Keep.withVar fun lr => (moveDown_keep l _ _).bind fun _ => (resize_keep l _).bind fun _ =>
      (readLoc_ro lr).bind_keep fun w => copyV_keep w

theorem searchKeys_ro [Env α] (a : Addr) (v : V α) (f lo hi : Nat) : RO (searchKeys a v f lo hi) := by
  induction f generalizing lo hi with
  | zero => exact fun _ => trivial
  | succ f ih =>
    unfold searchKeys
    split
    · exact RO.pure _
    · refine RO.bind (obj_ro a) fun o => ?_
      split
      · exact RO.throwE
      · refine RO.bind (readLoc_ro _) fun k => RO.bind getMem_ro fun m => ?_
        split
        · exact ih _ _
        · exact ih _ _

theorem keyFound_ro [Env α] (a : Addr) (v : V α) (p : Nat) : RO (keyFound a v p) := by
  refine RO.bind (obj_ro a) fun o => ?_
  split
  · exact RO.pure _
  · exact RO.bind (readLoc_ro _) fun k => RO.bind getMem_ro fun m => RO.pure _

theorem mapAt_keep [Env α] {lk : Bool} (t v : V α) : Keep lk (mapAt t v) [] (fun w => w.ptr.toList) := by
  refine (definedV_ro t).bind_keep fun d => ?_
  split
  · exact Keep.throwE
  · refine (heapOf_ro t).bind_keep fun h => ?_
    split
    · exact Keep.undef
    · refine (obj_ro _).bind_keep fun o => ?_
      split
      · exact Keep.throwE
      · refine (searchKeys_ro _ _ _ _ _).bind_keep fun p => (keyFound_ro _ _ _).bind_keep fun b => ?_
        split
        · exact reference_keep _ _
        · exact Keep.pure _ fun _ => rfl

theorem makeMap_keep [Env α] {lk : Bool} (r : Loc) : Keep lk (makeMap r : M α Unit) [] (fun _ => []) := by
  intro s own hi
  simp only [List.nil_append] at hi
  unfold makeMap
  cases hr : readLoc r s with
  | ok t s1 =>
    obtain rfl := readLoc_ok hr
    rw [bind_eq hr]
    cases t with
    | nil =>
      simp only
      cases hn : (newHeap 0 (some .pair) : M α Addr) s1 with
      | ok b s2 =>
        obtain ⟨hi2, hstk, hst⟩ := newHeap_ok hn hi
        rw [bind_eq hn]
        obtain ⟨s3, hw, hi3, hlen, -⟩ := writeLoc_ok (v := .arr b) (own' := own) (hst r _ hr) hi2 (fun a => by
          simp [V.ptr, List.count_cons])
        rw [hw]
        exact ⟨[], fun _ => rfl, hi3, by rw [hlen, hstk]⟩
      | thrown e s2 => exact absurd hn (newHeap_nt _ _ s1 e s2)
      | ub u => simp [bind_run, M.bind, hn, Post]
      | abort => simp [bind_run, M.bind, hn, Post]
      | diverge => simp [bind_run, M.bind, hn, Post]
    | num k x => exact ⟨[], fun _ => rfl, hi, rfl⟩
    | bad k => exact ⟨[], fun _ => rfl, hi, rfl⟩
    | arr a => exact ⟨[], fun _ => rfl, hi, rfl⟩
    | ref a i => exact ⟨[], fun _ => rfl, hi, rfl⟩
  | thrown e s1 => exact absurd hr (readLoc_nt r s e s1)
  | ub u => simp [bind_run, M.bind, hr, Post]
  | abort => simp [bind_run, M.bind, hr, Post]
  | diverge => simp [bind_run, M.bind, hr, Post]

theorem mapIndex_keep [Env α] {lk : Bool} (l : Loc) (v : V α) :
    Keep lk (mapIndex l v) v.ptr.toList (fun w => w.ptr.toList) := by
  refine Keep.withVar fun _ => (dereference_keep l).bind fun r => (makeMap_keep r).bind fun _ =>
    (readLoc_ro r).bind_keep fun w => ?_
  split
  · refine (obj_ro _).bind_keep fun o => ?_
    split
    · exact Keep.undef
    · refine (searchKeys_ro _ _ _ _ _).bind_keep fun p => (keyFound_ro _ _ _).bind_keep fun b => ?_
      split
      · exact (readLoc_ro r).bind_keep fun t => reference_keep _ _
      · exact (attachV_keep v).bind fun _ => (insert_keep _ _ _).bind fun _ =>
          (readLoc_ro r).bind_keep fun t => reference_keep _ _
  · exact Keep.undef

/-! ## Shifting -/

theorem destroy_ok (l own : List Addr) (s : State α) (hi : Inv s (l ++ own)) :
    ∃ mem', destroy l s = .ok () { s with mem := mem' } ∧ Inv { s with mem := mem' } own ∧ Shrunk s.mem mem' := by
  induction l generalizing own with
  | nil => exact ⟨s.mem, rfl, hi, Shrunk.refl _⟩
  | cons a l ih =>
    obtain ⟨m1, h1, hi1, hs1⟩ := ih (a :: own) (hi.congr fun b => by
      simp only [List.cons_append, List.count_append, List.count_cons]; omega)
    obtain ⟨m2, h2, hi2, hs2⟩ := detachV_ok (v := V.arr a) (own := own) hi1
    exact ⟨m2, by unfold destroy; rw [bind_eq h1, h2], hi2, hs1.trans hs2⟩

theorem shiftedVars_count {o : Obj α} {c : Cell α} {rest : List (Cell α)} (hc : o.cells = c :: rest)
    (hs : o.size ≠ 0) (b : Addr) :
    ((shiftedVars o).flatMap Cell.ptrs).count b + c.ptrs.count b = o.ptrs.count b := by
  obtain ⟨n, hn⟩ := Nat.exists_eq_succ_of_ne_zero hs
  have h1 : (rest.flatMap Cell.ptrs).count b =
      ((rest.take n).flatMap Cell.ptrs).count b + ((rest.drop n).flatMap Cell.ptrs).count b := by
    conv => lhs; rw [← List.take_append_drop n rest]
    rw [List.flatMap_append, List.count_append]
  simp only [shiftedVars, Obj.ptrs, hc, hn, List.take_succ_cons, List.drop_succ_cons, List.drop_zero,
    List.flatMap_append, List.flatMap_cons, List.count_append, freshCell_ptrs, List.nil_append]
  omega

theorem shiftedVars_typed {o : Obj α} (h : o.Typed) : Obj.Typed { o with cells := shiftedVars o } := by
  intro c hc
  simp only [shiftedVars, List.mem_append, List.mem_cons] at hc
  rcases hc with hc | hc | hc
  · exact h c (List.mem_of_mem_take (List.mem_of_mem_drop hc))
  · subst hc; exact freshCell_ok _
  · exact h c (List.mem_of_mem_drop hc)

theorem raw_ptrs {k : Kind} (hk : k ≠ .var ∧ k ≠ .pair) {c : Cell α} (h : CellOk k c) : c.ptrs = [] := by
  cases c with
  | raw x => rfl
  | var v => exact absurd h hk.1
  | pair k v => exact absurd h hk.2

theorem setObj_keep_raw {lk : Bool} {a : Addr} {o : Obj α} {cells : List (Cell α)} {s : State α} {own : List Addr}
    {f : Unit → M α β} {post : β → List Addr} (hi : Inv s own) (ho : s.mem[a]? = some (some o))
    (hk : o.kind ≠ .var ∧ o.kind ≠ .pair) (hc : ∀ c ∈ cells, CellOk o.kind c)
    (hf : Keep lk (f ()) [] post) :
    Post lk s.stk.length own post ((setObj a { o with cells := cells } >>= f) s) := by
  have hset : setObj a { o with cells := cells } s =
      .ok () { s with mem := s.mem.set a (some { o with cells := cells }) } := rfl
  rw [bind_eq hset]
  refine hf _ own ?_
  refine InvM.update hi ho (InvM.live hi a o ho) hc fun b => ?_
  have h1 : o.ptrs = [] := flatMap_ptrs_nil fun c h => raw_ptrs hk (InvM.typed hi a o ho c h)
  have h2 : cells.flatMap Cell.ptrs = [] := flatMap_ptrs_nil fun c h => raw_ptrs hk (hc c h)
  have h3 : Obj.ptrs { o with cells := cells } = [] := h2
  rw [h1, h3]
  rfl

theorem boxed_keep [Env α] {lk : Bool} (k : Kind) (x : α) :
    Keep lk (boxed k x) [] (fun w => w.ptr.toList) := by
  unfold boxed
  split
  · refine Keep.of_ok (NT.bind (newHeap_nt _ _) fun _ => NT.bind (setRaw_nt _ _ _) fun _ => NT.pure _)
      fun s own b s' hi h => ?_
    obtain ⟨nb, s1, hn, h2⟩ := bind_ok h
    obtain ⟨hi1, hstk1, -⟩ := newHeap_ok hn (by simpa using hi)
    obtain ⟨_, s2, hs, h3⟩ := bind_ok h2
    obtain ⟨hi2, hstk2, -⟩ := setRaw_ok hs hi1
    cases h3
    exact ⟨by simpa [V.ptr] using hi2, by rw [hstk2, hstk1]⟩
  · exact Keep.pure _ fun _ => rfl

theorem heapShift_vars_keep [Env α] {lk : Bool} {a : Addr} {o : Obj α} {s : State α} {own : List Addr}
    (hi : Inv s own) (ho : s.mem[a]? = some (some o)) (hz : o.size ≠ 0) :
    Post lk s.stk.length own (fun w => w.ptr.toList) (shiftVars a o s) := by
  unfold shiftVars
  cases hcs : o.cells with
  | nil => trivial
  | cons c rest =>
    simp only
    cases hr : readLoc (.cell a 0) s with
    | ok v s1 =>
      obtain rfl := readLoc_ok hr
      rw [bind_eq hr]
      have hset : setObj a { o with cells := shiftedVars o } s1 =
        .ok () { s1 with mem := s1.mem.set a (some { o with cells := shiftedVars o }) } := rfl
      rw [bind_eq hset]
      have hi2 : Inv { s1 with mem := s1.mem.set a (some { o with cells := shiftedVars o }) } (c.ptrs ++ own) := by
        refine InvM.update hi ho (InvM.live hi a o ho) (shiftedVars_typed (InvM.typed hi a o ho)) fun b => ?_
        have := shiftedVars_count hcs hz b
        simp only [List.count_append]
        simp only [Obj.ptrs] at this ⊢
        omega
      refine (?_ : Keep lk _ c.ptrs (fun w : V α => w.ptr.toList)) _ own hi2
      refine Keep.of_ok (NT.bind (attachV_nt _) fun _ => ?_) ?_
      · refine NT.bind ?_ fun _ => NT.bind (heapResize_nt _ _) fun _ => NT.pure _
        have : ∀ l : List Addr, NT (destroy l : M α Unit) := by
          intro l
          induction l with
          | nil => exact NT.pure _
          | cons a l ih => exact NT.bind ih fun _ => detachV_nt _
        exact this _
      · intro s own b s' hi h
        obtain ⟨_, s3, ha, h2⟩ := bind_ok h
        obtain ⟨hi3, hstk3, -⟩ := attachV_ok ha hi
        obtain ⟨m4, hd, hi4, -⟩ := destroy_ok c.ptrs (v.ptr.toList ++ own) s3 (hi3.congr fun b => by
          simp only [List.count_append]; omega)
        rw [bind_eq hd] at h2
        obtain ⟨_, s5, hr5, h5⟩ := bind_ok h2
        obtain ⟨hi5, hstk5, -⟩ := heapResize_ok hr5 hi4
        cases h5
        exact ⟨hi5, by rw [hstk5]; exact congrArg List.length hstk3⟩
    | thrown e s1 => exact absurd hr (readLoc_nt _ s e s1)
    | ub u => simp [bind_run, M.bind, hr, Post]
    | abort => simp [bind_run, M.bind, hr, Post]
    | diverge => simp [bind_run, M.bind, hr, Post]

theorem heapShift_keep [Env α] {lk : Bool} (a : Addr) :
    Keep lk (heapShift a : M α (V α)) [] (fun w => w.ptr.toList) := by
  intro s own hi
  simp only [List.nil_append] at hi
  unfold heapShift
  cases ho : (obj a : M α _) s with
  | ok o s1 =>
    obtain ⟨rfl, ho'⟩ := obj_ok ho
    rw [bind_eq ho]
    by_cases hz' : o.size = 0 ∨ o.cells.length < o.size
    · rw [if_pos hz']; trivial
    · rw [if_neg hz']
      have hz : ¬ o.size = 0 := fun h => hz' (.inl h)
      by_cases hk : o.kind = .var ∨ o.kind = .pair
      · rw [if_pos hk]
        exact heapShift_vars_keep hi ho' hz
      · rw [if_neg hk]
        have hk' : o.kind ≠ .var ∧ o.kind ≠ .pair := ⟨fun h => hk (.inl h), fun h => hk (.inr h)⟩
        unfold shiftNums
        cases hx : (rawAt a 0 : M α α) s1 with
        | ok x s2 =>
          have hro := rawAt_ro (α := α) a 0 s1
          rw [hx] at hro
          obtain rfl := hro
          rw [bind_eq hx]
          refine setObj_keep_raw hi ho' hk' (fun c hc => ?_)
            ((heapResize_keep a _).bind fun _ => boxed_keep o.kind x)
          simp only [shiftedRaws, List.mem_append] at hc
          rcases hc with hc | hc
          · exact InvM.typed hi a o ho' c (List.mem_of_mem_take (List.mem_of_mem_drop hc))
          · exact InvM.typed hi a o ho' c (List.mem_of_mem_drop hc)
        | thrown e s2 => exact absurd hx (rawAt_nt _ _ s1 e s2)
        | ub u => simp [bind_run, M.bind, hx, Post]
        | abort => simp [bind_run, M.bind, hx, Post]
        | diverge => simp [bind_run, M.bind, hx, Post]
  | thrown e s1 => exact absurd ho (obj_nt _ s e s1)
  | ub u => simp [bind_run, M.bind, ho, Post]
  | abort => simp [bind_run, M.bind, ho, Post]
  | diverge => simp [bind_run, M.bind, ho, Post]

theorem shift_keep [Env α] {lk : Bool} (l : Loc) : Keep lk (shift l : M α (V α)) [] (fun w => w.ptr.toList) := by
  refine (readLoc_ro l).bind_keep fun t => (heapOf_ro t).bind_keep fun h => ?_
  split
  · exact heapShift_keep _
  · exact copyV_keep t

/-- What the place after the last element held before unshifting. -/
def lost (o : Obj α) : List Addr :=
  ((o.cells.drop (o.size - 1)).take (o.size - (o.size - 1))).flatMap Cell.ptrs

/-- Unshifting loses it. -/
theorem unshifted_count (o : Obj α) (c : Cell α) (b : Addr) :
    o.ptrs.count b + c.ptrs.count b = ((unshifted c o).flatMap Cell.ptrs).count b + (lost o).count b := by
  have h1 : o.ptrs.count b = ((o.cells.take (o.size - 1)).flatMap Cell.ptrs).count b +
      ((o.cells.drop (o.size - 1)).flatMap Cell.ptrs).count b := by
    unfold Obj.ptrs
    conv => lhs; rw [← List.take_append_drop (o.size - 1) o.cells]
    rw [List.flatMap_append, List.count_append]
  have h2 : ((o.cells.drop (o.size - 1)).flatMap Cell.ptrs).count b = (lost o).count b +
      ((o.cells.drop o.size).flatMap Cell.ptrs).count b := by
    have : o.cells.drop o.size = (o.cells.drop (o.size - 1)).drop (o.size - (o.size - 1)) := by
      rw [List.drop_drop]; congr 1; omega
    rw [this]
    conv => lhs; rw [← List.take_append_drop (o.size - (o.size - 1)) (o.cells.drop (o.size - 1))]
    rw [List.flatMap_append, List.count_append]
    rfl
  simp only [unshifted, List.flatMap_cons, List.flatMap_append, List.count_append]
  omega

theorem unshifted_mem {o : Obj α} {c d : Cell α} (h : d ∈ unshifted c o) : d = c ∨ d ∈ o.cells := by
  simp only [unshifted, List.mem_cons, List.mem_append] at h
  rcases h with h | h | h
  · exact .inl h
  · exact .inr (List.mem_of_mem_take h)
  · exact .inr (List.mem_of_mem_drop h)

theorem Post.of_leak {n : Nat} {own L : List Addr} {post : β → List Addr} {r : R α β}
    (h : Post true n (L ++ own) post r) : Post true n own post r := by
  cases r with
  | ok b s =>
    obtain ⟨L', -, h2, h3⟩ := h
    exact ⟨L' ++ L, by simp, by rw [List.append_assoc]; exact h2, h3⟩
  | thrown e s =>
    obtain ⟨L', -, h2, h3⟩ := h
    exact ⟨L' ++ L, by simp, by rw [List.append_assoc]; exact h2, h3⟩
  | ub u => trivial
  | abort => trivial
  | diverge => trivial

theorem heapUnshift_keep [Env α] (a : Addr) (v : V α) :
    Keep true (heapUnshift a v) v.ptr.toList (fun _ => []) := by
  refine Keep.withVar fun _ => (obj_ro a).bind_keep fun o => (heapResize_keep a _).bind fun _ => ?_
  intro s own hi
  simp only [List.nil_append] at hi
  cases ho : (obj a : M α _) s with
  | ok o s1 =>
    obtain ⟨rfl, ho'⟩ := obj_ok ho
    rw [bind_eq ho]
    by_cases hv : o.kind = .var
    · rw [if_pos hv]
      unfold unshiftVars
      split
      · trivial
      have hset : setObj a { o with cells := unshifted (.var .nil) o } s1 =
        .ok () { s1 with mem := s1.mem.set a (some { o with cells := unshifted (.var .nil) o }) } := rfl
      rw [bind_eq hset]
      refine Post.of_leak (L := lost o) ?_
      refine ((attachV_keep v).bind fun _ => assignPlain_keep _ v :
        Keep true _ [] (fun _ => [])) _ (lost o ++ own) ?_
      refine InvM.update hi ho' (InvM.live hi a o ho') ?_ fun b => ?_
      · intro c hc
        rcases unshifted_mem hc with h | h
        · subst h; exact hv
        · exact InvM.typed hi a o ho' c h
      · have := unshifted_count o (.var .nil) b
        simp only [List.count_append, List.nil_append]
        simp only [Obj.ptrs, Cell.ptrs, V.ptr, Option.toList, List.count_nil] at this ⊢
        omega
    · rw [if_neg hv]
      by_cases hp : o.kind = .pair
      · rw [if_pos hp]
        exact ⟨[], by simp, hi, rfl⟩
      · rw [if_neg hp]
        unfold unshiftNums
        split
        · trivial
        cases hcs : o.cells with
        | nil => trivial
        | cons c rest =>
          simp only
          refine setObj_keep_raw hi ho' ⟨hv, hp⟩ (fun d hd => ?_)
            ((getV_ro _ v).bind_keep fun x => setRaw_keep _ _ x)
          rcases unshifted_mem hd with h | h
          · subst h; exact InvM.typed hi a o ho' d (by simp [hcs])
          · exact InvM.typed hi a o ho' d h
  | thrown e s1 => exact absurd ho (obj_nt _ s e s1)
  | ub u => simp [bind_run, M.bind, ho, Post]
  | abort => simp [bind_run, M.bind, ho, Post]
  | diverge => simp [bind_run, M.bind, ho, Post]

theorem unshift_keep [Env α] (l : Loc) (v : V α) : Keep true (unshift l v) v.ptr.toList (fun _ => []) := by
  refine Keep.withVar fun _ => (readLoc_ro l).bind_keep fun t => (definedV_ro t).bind_keep fun d => ?_
  split
  · exact (attachV_keep v).bind fun _ => assign_keep l v
  · refine (heapOf_ro t).bind_keep fun h => ?_
    have tail : Keep true (do
        match ← heapOf (← readLoc l) with
        | some a => do
          attachV v
          heapUnshift a v
        | none => undef .nullDeref : M α Unit) [] (fun _ => []) := by
      refine (readLoc_ro l).bind_keep fun w => (heapOf_ro w).bind_keep fun h => ?_
      split
      · exact (attachV_keep v).bind fun _ => heapUnshift_keep _ v
      · exact Keep.undef
    split
    · exact (Keep.pure () (post := fun _ => []) fun _ => rfl).bind fun _ => tail
    · exact (array_keep l).bind fun _ => tail

end Libube.Mem

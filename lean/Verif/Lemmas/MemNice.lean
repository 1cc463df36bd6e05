import Verif.Lemmas.MemProg
import Verif.Lemmas.AllocSize

/-! # Elements are never references, and arrays have room for their elements -/

namespace Libube.Mem

open MemSpec

/-- The var is a reference. -/
def V.IsRef : V α → Prop
  | .ref _ _ => True
  | _ => False

/-- Room needed for the elements and the terminating NUL. -/
def Obj.need (o : Obj α) : Nat := o.size + if o.kind = .char then 1 else 0

/-- The array has room for its elements (if the size is one the library can represent), and no element is a reference, except perhaps at `e`. -/
structure NiceO (e : Option Loc) (a : Addr) (o : Obj α) : Prop where
  fits : o.need ≤ 2 ^ 30 → o.need ≤ o.cells.length
  top : o.cells.length ≤ 2 ^ 30
  cell : ∀ (i : Nat) (v : V α), (o.cells[i]? = some (.var v) ∨ ∃ k, o.cells[i]? = some (.pair k v)) → v.IsRef →
    e = some (.cell a i)
  key : ∀ (i : Nat) (k v : V α), o.cells[i]? = some (.pair k v) → k.IsRef → e = some (.key a i)

/-- So it is for all arrays. -/
def Nice (e : Option Loc) (s : State α) : Prop := ∀ (a : Addr) (o : Obj α), s.mem[a]? = some (some o) → NiceO e a o

/-- The call keeps it so. -/
def Pres (e : Option Loc) (m : M α β) : Prop := ∀ s, Nice e s → match m s with
  | .ok _ s' => Nice e s'
  | .thrown _ s' => Nice e s'
  | _ => True

/-- A place without references. -/
def Cell.Clean : Cell α → Prop
  | .raw _ => True
  | .var v => ¬ v.IsRef
  | .pair k v => ¬ k.IsRef ∧ ¬ v.IsRef

theorem NiceO.clean {a : Addr} {o : Obj α} (h : NiceO none a o) : ∀ c ∈ o.cells, c.Clean := by
  intro c hc
  obtain ⟨i, hi⟩ := List.mem_iff_getElem?.1 hc
  cases c with
  | raw x => trivial
  | var v => exact fun hv => by cases h.cell i v (.inl hi) hv
  | pair k v => exact ⟨fun hk => (by cases h.key i k v hi hk), fun hv => (by cases h.cell i v (.inr ⟨k, hi⟩) hv)⟩

theorem NiceO.of_clean {e : Option Loc} {a : Addr} {o : Obj α} (h : ∀ c ∈ o.cells, c.Clean)
    (hf : o.need ≤ 2 ^ 30 → o.need ≤ o.cells.length) (ht : o.cells.length ≤ 2 ^ 30) : NiceO e a o := by
  refine ⟨hf, ht, ?_, ?_⟩
  · rintro i v (hi | ⟨k, hi⟩) hv
    · exact absurd hv (h _ (List.mem_of_getElem? hi))
    · exact absurd hv (h _ (List.mem_of_getElem? hi)).2
  · intro i k v hi hk
    exact absurd hk (h _ (List.mem_of_getElem? hi)).1

theorem NiceO.mono {e : Option Loc} {a : Addr} {o : Obj α} (h : NiceO none a o) : NiceO e a o :=
  .of_clean h.clean h.fits h.top

theorem NiceO.rc {e : Option Loc} {a : Addr} {o : Obj α} (h : NiceO e a o) (r : Nat) : NiceO e a { o with rc := r } :=
  ⟨h.fits, h.top, h.cell, h.key⟩

theorem Nice.set {e : Option Loc} {s : State α} (h : Nice e s) {a : Addr} {x : Option (Obj α)}
    (hx : ∀ o, x = some o → NiceO e a o) : Nice e { s with mem := s.mem.set a x } := by
  intro b o hb
  simp only at hb
  by_cases hab : a = b
  · subst hab
    by_cases hl : a < s.mem.length
    · rw [List.getElem?_set_self hl] at hb
      exact hx o (by simpa using hb)
    · rw [List.getElem?_eq_none (by simp; omega)] at hb
      cases hb
  · rw [List.getElem?_set_ne hab] at hb
    exact h b o hb

theorem Nice.append {e : Option Loc} {s : State α} (h : Nice e s) {o : Obj α} (ho : NiceO e s.mem.length o) :
    Nice e { s with mem := s.mem ++ [some o] } := by
  intro b p hb
  simp only at hb
  rcases Nat.lt_trichotomy b s.mem.length with hl | hl | hl
  · rw [List.getElem?_append_left hl] at hb
    exact h b p hb
  · subst hl
    simp at hb
    subst hb
    exact ho
  · rw [List.getElem?_eq_none (by simp; omega)] at hb
    cases hb

theorem Nice.stk {e : Option Loc} {s s' : State α} (h : Nice e s) (hm : s'.mem = s.mem) : Nice e s' := by
  intro a o ho
  rw [hm] at ho
  exact h a o ho

theorem Pres.pure {e : Option Loc} (b : β) : Pres e (pure b : M α β) := fun _ h => h
theorem Pres.undef {e : Option Loc} {u : UB} : Pres e (undef u : M α β) := fun _ _ => trivial
theorem Pres.abort {e : Option Loc} : Pres e (abortM : M α β) := fun _ _ => trivial
theorem Pres.throwE {e : Option Loc} {x : Exn} : Pres e (throwE x : M α β) := fun _ h => h
theorem Pres.diverge {e : Option Loc} : Pres e (fun _ => .diverge : M α β) := fun _ _ => trivial

theorem RO.pres {e : Option Loc} {m : M α β} (h : RO m) : Pres e m := by
  intro s hs
  have := h s
  revert this
  cases m s with
  | ok b s' => rintro rfl; exact hs
  | thrown x s' => rintro rfl; exact hs
  | _ => intro; trivial

theorem Pres.bind {e : Option Loc} {m : M α β} {f : β → M α γ} (hm : Pres e m) (hf : ∀ b, Pres e (f b)) :
    Pres e (m >>= f) := by
  intro s hs
  have h1 := hm s hs
  rw [bind_run]
  unfold M.bind
  revert h1
  cases m s with
  | ok b s' => exact fun h1 => hf b s' h1
  | thrown x s' => exact fun h1 => h1
  | _ => intro; trivial

/-- A call after reading an array. -/
theorem Pres.obj {e : Option Loc} {a : Addr} {f : Obj α → M α γ} (hf : ∀ o, NiceO e a o → Pres e (f o)) :
    Pres e (obj a >>= f) := by
  intro s hs
  rw [bind_run]
  unfold M.bind Mem.obj
  cases h : s.mem[a]? with
  | none => trivial
  | some x =>
    cases x with
    | none => trivial
    | some o => exact hf o (hs a o h) s hs

theorem setObj_pres {e : Option Loc} {a : Addr} {o : Obj α} (h : NiceO e a o) : Pres e (setObj a o) :=
  fun s hs => hs.set (x := some o) fun p hp => by cases hp; exact h

theorem attachV_pres {e : Option Loc} (v : V α) : Pres e (attachV v) := by
  unfold attachV
  cases v.ptr with
  | none => exact .pure _
  | some a => exact .obj fun o ho => setObj_pres (ho.rc _)

theorem release_nice {e : Option Loc} (n : Nat) (pend : List Addr) (stk : List (V α)) :
    ∀ (mem mem' : List (Option (Obj α))), Nice e ⟨mem, stk⟩ → release n pend mem = .ok mem' → Nice e ⟨mem', stk⟩ := by
  induction n generalizing pend with
  | zero =>
    intro mem mem' h hr
    cases pend with
    | nil => cases hr; exact h
    | cons a rest => cases hr
  | succ n ih =>
    intro mem mem' h hr
    cases pend with
    | nil => cases hr; exact h
    | cons a rest =>
      unfold release at hr
      cases hm : mem[a]? with
      | none => rw [hm] at hr; cases hr
      | some x =>
        cases x with
        | none => rw [hm] at hr; cases hr
        | some o =>
          rw [hm] at hr
          simp only at hr
          have ho := h a o hm
          split at hr
          · cases hr
          · split at hr
            · exact ih _ _ _ (h.set (x := none) (fun p hp => by cases hp)) hr
            · exact ih _ _ _ (h.set (x := some _) (fun p hp => by cases hp; exact ho.rc _)) hr

theorem detachV_pres {e : Option Loc} (v : V α) : Pres e (detachV v) := by
  intro s hs
  simp only [detachV, bind_run, M.bind, getMem, liftO]
  cases h : release (weight s.mem + 1) v.ptr.toList s.mem with
  | ok mem' => exact release_nice _ _ s.stk _ _ hs h
  | thrown x => exact hs
  | _ => trivial

theorem copyV_pres {e : Option Loc} (v : V α) : Pres e (copyV v) := .bind (attachV_pres v) fun _ => .pure _

theorem Pres.withVar {e : Option Loc} {v : V α} {f : Loc → M α β} (hf : ∀ l, Pres e (f l)) : Pres e (withVar v f) := by
  intro s hs
  unfold Mem.withVar
  have h1 := hf (.slot s.stk.length) { s with stk := s.stk ++ [v] } (hs.stk rfl)
  revert h1
  simp only
  cases f (.slot s.stk.length) { s with stk := s.stk ++ [v] } with
  | ok b s' =>
    intro h1
    simp only
    cases hw : s'.stk[s.stk.length]? with
    | none => trivial
    | some w =>
      simp only
      have h2 := detachV_pres (e := e) w { s' with stk := s'.stk.take s.stk.length } (h1.stk rfl)
      revert h2
      cases detachV w { s' with stk := s'.stk.take s.stk.length } <;> exact fun h => h
  | thrown x s' =>
    intro h1
    simp only
    cases hw : s'.stk[s.stk.length]? with
    | none => trivial
    | some w =>
      simp only
      have h2 := detachV_pres (e := e) w { s' with stk := s'.stk.take s.stk.length } (h1.stk rfl)
      revert h2
      cases detachV w { s' with stk := s'.stk.take s.stk.length } <;> exact fun h => h
  | _ => intro; trivial

theorem freshCell_clean (k : Kind) : (freshCell k : Cell α).Clean := by
  cases k <;> simp [freshCell, Cell.Clean, V.IsRef]

/-- What `resizeObj` makes has room, and has new places only where there were none. -/
theorem resizeObj_nice [Env α] {o o' : Obj α} {n : Nat} (h : resizeObj o n = .ok o') :
    o'.kind = o.kind ∧ o'.size = n ∧ (o'.need ≤ 2 ^ 30 → o'.need ≤ o'.cells.length) ∧
    ∀ (i : Nat) (c : Cell α), o'.cells[i]? = some c → o.cells[i]? = some c ∨ c.Clean := by
  unfold resizeObj at h
  cases hc : Alloc.allocSize (if o.kind = .char then (n : Int) + 1 else n) with
  | ok c =>
    rw [hc, Outcome.bind_ok] at h
    have hcm : (n : Int) + (if o.kind = .char then 1 else 0) ≤ 2 ^ 30 → (n : Int) + (if o.kind = .char then 1 else 0) ≤ c := by
      intro hb
      have he : (if o.kind = .char then (n : Int) + 1 else n) = n + (if o.kind = .char then 1 else 0) := by split <;> omega
      have h0 : 0 ≤ (n : Int) + (if o.kind = .char then 1 else 0) := by split <;> omega
      rw [he] at hc
      obtain ⟨c', hc', hl⟩ := Alloc.allocSize_least _ h0 hb
      rw [hc] at hc'
      cases hc'
      exact hl.2.1
    have step : ∀ cells : List (Cell α),
        ((n : Int) + (if o.kind = .char then 1 else 0) ≤ 2 ^ 30 → (n : Int) + (if o.kind = .char then 1 else 0) ≤ cells.length) →
        (∀ (i : Nat) (c : Cell α), cells[i]? = some c → o.cells[i]? = some c ∨ c.Clean) →
        (terminate o.kind cells n >>= fun cells => Outcome.ok { o with size := n, cells := cells }) = .ok o' →
        o'.kind = o.kind ∧ o'.size = n ∧ (o'.need ≤ 2 ^ 30 → o'.need ≤ o'.cells.length) ∧
        ∀ (i : Nat) (c : Cell α), o'.cells[i]? = some c → o.cells[i]? = some c ∨ c.Clean := by
      intro cells hlen hcl h
      unfold terminate at h
      by_cases hk : o.kind = .char
      · rw [if_pos hk] at h
        by_cases hn : n < cells.length
        · rw [if_pos hn, Outcome.bind_ok] at h
          cases h
          refine ⟨rfl, rfl, ?_, fun i c hi => ?_⟩
          · simp only [Obj.need, hk, if_true, List.length_set]
            omega
          · simp only at hi
            rw [List.getElem?_set] at hi
            split at hi
            · cases hi
              exact .inr trivial
            · exact hcl i c hi
        · rw [if_neg hn] at h
          cases h
      · rw [if_neg hk, Outcome.bind_ok] at h
        cases h
        rw [if_neg hk] at hlen
        refine ⟨rfl, rfl, ?_, hcl⟩
        simp only [Obj.need, hk, if_false]
        omega
    unfold growCells at h
    by_cases h0 : o.cells.length = 0
    · rw [if_pos h0] at h
      by_cases hneg : c < 0
      · rw [if_pos hneg] at h
        cases h
      · rw [if_neg hneg, Outcome.bind_ok] at h
        refine step _ ?_ ?_ h
        · intro hb
          have := hcm hb
          simp only [List.length_replicate]
          omega
        · intro i c hi
          rw [List.eq_of_mem_replicate (List.mem_of_getElem? hi)]
          exact .inr (freshCell_clean _)
    · rw [if_neg h0] at h
      by_cases hlt : (o.cells.length : Int) < c
      · rw [if_pos hlt, Outcome.bind_ok] at h
        refine step _ ?_ ?_ h
        · intro hb
          have := hcm hb
          simp only [List.length_append, List.length_replicate]
          omega
        · intro i c hi
          by_cases hl : i < o.cells.length
          · rw [List.getElem?_append_left hl] at hi
            exact .inl hi
          · rw [List.getElem?_append_right (by omega)] at hi
            rw [List.eq_of_mem_replicate (List.mem_of_getElem? hi)]
            exact .inr (freshCell_clean _)
      · rw [if_neg hlt, Outcome.bind_ok] at h
        refine step _ ?_ (fun i c hi => .inl hi) h
        intro hb
        have := hcm hb
        omega
  | thrown e => rw [hc] at h; cases h
  | ub u => rw [hc] at h; cases h
  | abort => rw [hc] at h; cases h
  | diverge => rw [hc] at h; cases h

/-- `resizeObj` never obtains more than 2^30 places. -/
theorem resizeObj_top [Env α] {o o' : Obj α} {n : Nat} (ho : o.cells.length ≤ 2 ^ 30) (h : resizeObj o n = .ok o') :
    o'.cells.length ≤ 2 ^ 30 := by
  unfold resizeObj at h
  cases hc : Alloc.allocSize (if o.kind = .char then (n : Int) + 1 else n) with
  | ok c =>
    rw [hc, Outcome.bind_ok] at h
    have ht := Alloc.allocSize_top hc
    have step : ∀ cells : List (Cell α), cells.length ≤ 2 ^ 30 →
        (terminate o.kind cells n >>= fun cells => Outcome.ok { o with size := n, cells := cells }) = .ok o' →
        o'.cells.length ≤ 2 ^ 30 := by
      intro cells hl h
      unfold terminate at h
      split at h
      · split at h
        · rw [Outcome.bind_ok] at h
          cases h
          rw [List.length_set]
          exact hl
        · cases h
      · rw [Outcome.bind_ok] at h
        cases h
        exact hl
    unfold growCells at h
    split at h
    · split at h
      · cases h
      · rw [Outcome.bind_ok] at h
        refine step _ ?_ h
        rw [List.length_replicate]
        omega
    · split at h
      · rw [Outcome.bind_ok] at h
        refine step _ ?_ h
        rw [List.length_append, List.length_replicate]
        omega
      · rw [Outcome.bind_ok] at h
        exact step _ ho h
  | thrown e => rw [hc] at h; cases h
  | ub u => rw [hc] at h; cases h
  | abort => rw [hc] at h; cases h
  | diverge => rw [hc] at h; cases h

theorem resizeObj_niceO [Env α] {e : Option Loc} {a : Addr} {o o' : Obj α} {n : Nat} (ho : NiceO e a o)
    (h : resizeObj o n = .ok o') : NiceO e a o' := by
  obtain ⟨-, -, h3, h4⟩ := resizeObj_nice h
  refine ⟨h3, resizeObj_top ho.top h, ?_, ?_⟩
  · rintro i v (hi | ⟨k, hi⟩) hv
    · rcases h4 i _ hi with h5 | h5
      · exact ho.cell i v (.inl h5) hv
      · exact absurd hv h5
    · rcases h4 i _ hi with h5 | h5
      · exact ho.cell i v (.inr ⟨k, h5⟩) hv
      · exact absurd hv h5.2
  · intro i k v hi hk
    rcases h4 i _ hi with h5 | h5
    · exact ho.key i k v h5 hk
    · exact absurd hk h5.1

theorem Pres.liftO {e : Option Loc} {x : Outcome β} {f : β → M α γ} (h : ∀ b, x = .ok b → Pres e (f b)) :
    Pres e (liftO x >>= f) := by
  intro s hs
  rw [bind_run]
  unfold M.bind Mem.liftO
  cases x with
  | ok b => exact h b rfl s hs
  | thrown y => exact hs
  | _ => trivial

theorem heapResize_pres [Env α] {e : Option Loc} (a : Addr) (n : Nat) : Pres e (heapResize a n : M α Unit) :=
  .obj fun _ ho => .liftO fun _ h => setObj_pres (resizeObj_niceO ho h)

/-- A call after resizing an array and reading it. -/
theorem Pres.resized [Env α] {e : Option Loc} {a : Addr} {n : Nat} {f : Obj α → M α γ}
    (hf : ∀ o, NiceO e a o → o.size = n → Pres e (f o)) : Pres e (heapResize a n >>= fun _ => Mem.obj a >>= f) := by
  intro s hs
  rw [bind_run]
  unfold M.bind heapResize
  rw [bind_run]
  unfold M.bind
  cases h : (Mem.obj a : M α _) s with
  | ok o s1 =>
    obtain ⟨rfl, ho⟩ := obj_ok h
    simp only
    rw [bind_run]
    unfold M.bind Mem.liftO
    cases hr : resizeObj o n with
    | ok o' =>
      have hn := resizeObj_niceO (hs a o ho) hr
      have hl : a < s1.mem.length := (List.getElem?_eq_some_iff.1 ho).1
      have hg : (Mem.obj a : M α _) { s1 with mem := s1.mem.set a (some o') } = .ok o' { s1 with mem := s1.mem.set a (some o') } := by
        simp [Mem.obj, List.getElem?_set_self hl]
      simp only [setObj]
      rw [bind_eq hg]
      exact hf o' hn (resizeObj_nice hr).2.1 _ (hs.set fun p hp => by cases hp; exact hn)
    | thrown x => exact hs
    | ub u => trivial
    | abort => trivial
    | diverge => trivial
  | thrown x s1 => exact absurd h (obj_nt _ s x s1)
  | ub u => trivial
  | abort => trivial
  | diverge => trivial

/-- A string made by `resizeObj` has room for its end. -/
theorem resizeObj_ends [Env α] {o o' : Obj α} {n : Nat} (hk : o.kind = .char) (h : resizeObj o n = .ok o') :
    n < o'.cells.length := by
  unfold resizeObj at h
  cases hc : Alloc.allocSize (if o.kind = .char then (n : Int) + 1 else n) with
  | ok c =>
    rw [hc, Outcome.bind_ok] at h
    cases hg : growCells o.kind o.cells c with
    | ok cells =>
      rw [hg, Outcome.bind_ok] at h
      unfold terminate at h
      rw [if_pos hk] at h
      split at h
      · rw [Outcome.bind_ok] at h
        cases h
        rw [List.length_set]
        assumption
      · cases h
    | thrown e => rw [hg] at h; cases h
    | ub u => rw [hg] at h; cases h
    | abort => rw [hg] at h; cases h
    | diverge => rw [hg] at h; cases h
  | thrown e => rw [hc] at h; cases h
  | ub u => rw [hc] at h; cases h
  | abort => rw [hc] at h; cases h
  | diverge => rw [hc] at h; cases h

theorem newObj_nice [Env α] {e : Option Loc} {a : Addr} {k : Kind} {o : Obj α} {n : Nat}
    (h : resizeObj ⟨k, 0, 1, []⟩ n = .ok o) : NiceO e a o := by
  obtain ⟨-, -, h3, h4⟩ := resizeObj_nice h
  refine .of_clean (fun c hc => ?_) h3 (resizeObj_top (by simp) h)
  obtain ⟨i, hi⟩ := List.mem_iff_getElem?.1 hc
  rcases h4 i c hi with h5 | h5
  · cases h5
  · exact h5

theorem pushObj_pres {e : Option Loc} {o : Obj α} (h : ∀ a, NiceO e a o) : Pres e (pushObj o) :=
  fun _ hs => hs.append (h _)

theorem newHeap_pres [Env α] {e : Option Loc} (n : Nat) (k : Option Kind) : Pres e (newHeap n k : M α Addr) :=
  .liftO fun _ h => pushObj_pres (e := e) fun _ => newObj_nice h

theorem setRaw_pres {e : Option Loc} (a : Addr) (i : Nat) (x : α) : Pres e (setRaw a i x) := by
  refine .obj fun o ho => ?_
  cases hc : o.cells[i]? with
  | none => exact .undef
  | some c =>
    cases c with
    | raw y =>
      refine setObj_pres ⟨by simpa [Obj.need] using ho.fits, by simpa using ho.top, ?_, ?_⟩
      · rintro j v (hj | ⟨k, hj⟩) hv <;> simp only at hj <;> rw [List.getElem?_set] at hj <;> split at hj
        · split at hj <;> cases hj
        · exact ho.cell j v (.inl hj) hv
        · split at hj <;> cases hj
        · exact ho.cell j v (.inr ⟨k, hj⟩) hv
      · intro j k v hj hk
        simp only at hj
        rw [List.getElem?_set] at hj
        split at hj
        · split at hj <;> cases hj
        · exact ho.key j k v hj hk
    | var v => exact .undef
    | pair k v => exact .undef

/-- Writing a var at its address. -/
theorem writeLoc_nice {e e' : Option Loc} {l : Loc} {v : V α} {s s' : State α} {u : Unit} (hs : Nice e s)
    (h1 : v.IsRef → (∀ n, l ≠ .slot n) → e' = some l) (h2 : ∀ l', l' ≠ l → e = some l' → e' = some l')
    (h : writeLoc l v s = .ok u s') : Nice e' s' := by
  cases l with
  | slot n =>
    unfold writeLoc at h
    simp only at h
    split at h
    · cases h
      intro a o ho
      have := hs a o ho
      refine ⟨this.fits, this.top, fun i w hi hw => h2 _ (by simp) (this.cell i w hi hw), fun i k w hi hw => h2 _ (by simp) (this.key i k w hi hw)⟩
    · cases h
  | cell a i =>
    obtain ⟨o, s1, ho, h⟩ := bind_ok h
    rw [(obj_ok ho).1] at h
    replace ho := (obj_ok ho).2
    have hn := hs a o ho
    have other : ∀ (b : Addr) (p : Obj α), b ≠ a → s.mem[b]? = some (some p) → NiceO e' b p := fun b p hb hp =>
      ⟨(hs b p hp).fits, (hs b p hp).top, fun j w hj hw => h2 _ (by simp [hb]) ((hs b p hp).cell j w hj hw),
        fun j k w hj hw => h2 _ (by simp) ((hs b p hp).key j k w hj hw)⟩
    have fin : ∀ (p : Obj α), NiceO e' a p → Nice e' { s with mem := s.mem.set a (some p) } := by
      intro p hp b q hq
      simp only at hq
      by_cases hab : a = b
      · subst hab
        rw [List.getElem?_set_self (List.getElem?_eq_some_iff.1 ho).1] at hq
        cases hq
        exact hp
      · rw [List.getElem?_set_ne hab] at hq
        exact other b q (Ne.symm hab) hq
    cases hc : o.cells[i]? with
    | none => rw [hc] at h; cases h
    | some c =>
      have hl := (List.getElem?_eq_some_iff.1 hc).1
      rw [hc] at h
      cases c with
      | raw y => cases h
      | var w =>
        cases h
        refine fin _ ⟨by simpa [Obj.need] using hn.fits, by simpa using hn.top, ?_, ?_⟩
        · intro j t hj ht
          simp only at hj
          by_cases hij : i = j
          · subst hij
            rw [List.getElem?_set_self hl] at hj
            rcases hj with hj | ⟨k, hj⟩ <;> cases hj
            exact h1 ht (by simp)
          · rw [List.getElem?_set_ne hij] at hj
            exact h2 _ (by simp [Ne.symm hij]) (hn.cell j t hj ht)
        · intro j k t hj ht
          simp only at hj
          by_cases hij : i = j
          · subst hij
            rw [List.getElem?_set_self hl] at hj
            cases hj
          · rw [List.getElem?_set_ne hij] at hj
            exact h2 _ (by simp) (hn.key j k t hj ht)
      | pair k w =>
        cases h
        refine fin _ ⟨by simpa [Obj.need] using hn.fits, by simpa using hn.top, ?_, ?_⟩
        · intro j t hj ht
          simp only at hj
          by_cases hij : i = j
          · subst hij
            rw [List.getElem?_set_self hl] at hj
            rcases hj with hj | ⟨k, hj⟩ <;> cases hj
            exact h1 ht (by simp)
          · rw [List.getElem?_set_ne hij] at hj
            exact h2 _ (by simp [Ne.symm hij]) (hn.cell j t hj ht)
        · intro j k' t hj ht
          simp only at hj
          by_cases hij : i = j
          · subst hij
            rw [List.getElem?_set_self hl] at hj
            cases hj
            exact h2 _ (by simp) (hn.key i k w hc ht)
          · rw [List.getElem?_set_ne hij] at hj
            exact h2 _ (by simp) (hn.key j k' t hj ht)
  | key a i =>
    obtain ⟨o, s1, ho, h⟩ := bind_ok h
    rw [(obj_ok ho).1] at h
    replace ho := (obj_ok ho).2
    have hn := hs a o ho
    have other : ∀ (b : Addr) (p : Obj α), b ≠ a → s.mem[b]? = some (some p) → NiceO e' b p := fun b p hb hp =>
      ⟨(hs b p hp).fits, (hs b p hp).top, fun j w hj hw => h2 _ (by simp) ((hs b p hp).cell j w hj hw),
        fun j k w hj hw => h2 _ (by simp [hb]) ((hs b p hp).key j k w hj hw)⟩
    have fin : ∀ (p : Obj α), NiceO e' a p → Nice e' { s with mem := s.mem.set a (some p) } := by
      intro p hp b q hq
      simp only at hq
      by_cases hab : a = b
      · subst hab
        rw [List.getElem?_set_self (List.getElem?_eq_some_iff.1 ho).1] at hq
        cases hq
        exact hp
      · rw [List.getElem?_set_ne hab] at hq
        exact other b q (Ne.symm hab) hq
    cases hc : o.cells[i]? with
    | none => rw [hc] at h; cases h
    | some c =>
      have hl := (List.getElem?_eq_some_iff.1 hc).1
      rw [hc] at h
      cases c with
      | raw y => cases h
      | var w => cases h
      | pair k w =>
        cases h
        refine fin _ ⟨by simpa [Obj.need] using hn.fits, by simpa using hn.top, ?_, ?_⟩
        · intro j t hj ht
          simp only at hj
          by_cases hij : i = j
          · subst hij
            rw [List.getElem?_set_self hl] at hj
            rcases hj with hj | ⟨k', hj⟩ <;> cases hj
            exact h2 _ (by simp) (hn.cell i w (.inr ⟨k, hc⟩) ht)
          · rw [List.getElem?_set_ne hij] at hj
            exact h2 _ (by simp) (hn.cell j t hj ht)
        · intro j k' t hj ht
          simp only at hj
          by_cases hij : i = j
          · subst hij
            rw [List.getElem?_set_self hl] at hj
            cases hj
            exact h1 ht (by simp)
          · rw [List.getElem?_set_ne hij] at hj
            exact h2 _ (by simp [Ne.symm hij]) (hn.key j k' t hj ht)

/-- Keeping the exemption, or trading one for another, for calls that throw nothing. -/
def Trade (e e' : Option Loc) (m : M α β) : Prop := ∀ s, Nice e s → match m s with
  | .ok _ s' => Nice e' s'
  | .thrown _ s' => Nice e' s'
  | _ => True

theorem Trade.bind {e e' e'' : Option Loc} {m : M α β} {f : β → M α γ} (hm : Trade e e' m) (hn : NT m)
    (hf : ∀ b, Trade e' e'' (f b)) : Trade e e'' (m >>= f) := by
  intro s hs
  have h1 := hm s hs
  have h2 := hn s
  rw [bind_run]
  unfold M.bind
  revert h1 h2
  cases m s with
  | ok b s' => exact fun h1 _ => hf b s' h1
  | thrown x s' => exact fun _ h2 => absurd rfl (h2 x s')
  | _ => intros; trivial

theorem writeLoc_trade {e e' : Option Loc} {l : Loc} {v : V α} 
    (h1 : v.IsRef → (∀ n, l ≠ .slot n) → e' = some l) (h2 : ∀ l', l' ≠ l → e = some l' → e' = some l') :
    Trade e e' (writeLoc l v) := by
  intro s hs
  have hn := writeLoc_nt l v s
  cases h : writeLoc l v s with
  | ok u s' => exact writeLoc_nice hs h1 h2 h
  | thrown x s' => exact absurd h (hn x s')
  | _ => trivial

theorem writeLoc_pres {e : Option Loc} {l : Loc} {v : V α} (hv : ¬ v.IsRef) : Pres e (writeLoc l v) :=
  writeLoc_trade (fun h => absurd h hv) (fun _ _ h => h)

theorem Nice.mono {e : Option Loc} {s : State α} (h : Nice none s) : Nice e s := fun a o ho => (h a o ho).mono

/-- The first part of an assignment: a reference may be stored at `l`. -/
theorem share_trade (l : Loc) (v : V α) : Trade none (some l) (share l v) := by
  unfold share
  refine Trade.bind (e' := none) (RO.pres (readLoc_ro l)) (readLoc_nt l) fun t => ?_
  refine Trade.bind (e' := none) (attachV_pres v) (attachV_nt v) fun _ => ?_
  refine Trade.bind (e' := some l) (writeLoc_trade (fun _ _ => rfl) (fun _ _ h => by cases h)) (writeLoc_nt l v) fun _ => ?_
  cases t <;> first | exact detachV_pres _ | exact Pres.pure ()

theorem share_pres (l : Loc) {v : V α} (hv : ¬ v.IsRef) : Pres none (share l v) := by
  unfold share
  refine .bind (RO.pres (readLoc_ro l)) fun t => ?_
  refine .bind (attachV_pres v) fun _ => ?_
  refine .bind (writeLoc_pres hv) fun _ => ?_
  cases t <;> first | exact detachV_pres _ | exact Pres.pure ()

/-- What is read at a place that is not exempt is no reference. -/
theorem readLoc_nice {l : Loc} {s : State α} {v : V α} {e : Option Loc} (hs : Nice e s) (h : readLoc l s = .ok v s)
    (hl : ∀ n, l ≠ .slot n) (hv : v.IsRef) : e = some l := by
  cases l with
  | slot n => exact absurd rfl (hl n)
  | cell a i =>
    obtain ⟨-, o, ho, hc⟩ := readLoc_cell h
    exact (hs a o ho).cell i v hc hv
  | key a i =>
    obtain ⟨-, o, ho, w, hc⟩ := readLoc_key h
    exact (hs a o ho).key i v w hc hv

theorem Nice.of_slot {n : Nat} {s : State α} (h : Nice (some (.slot n)) s) : Nice none s := by
  intro a o ho
  refine ⟨(h a o ho).fits, (h a o ho).top, fun i v hi hv => ?_, fun i k v hi hv => ?_⟩
  · cases (h a o ho).cell i v hi hv
  · cases (h a o ho).key i k v hi hv

/-- Nothing is exempt if what is stored there is no reference. -/
theorem Nice.of_read {l : Loc} {s : State α} {v : V α} (hs : Nice (some l) s) (h : readLoc l s = .ok v s)
    (hv : ¬ v.IsRef) : Nice none s := by
  intro a o ho
  have hn := hs a o ho
  refine ⟨hn.fits, hn.top, fun i w hi hw => ?_, fun i k w hi hw => ?_⟩
  · cases hn.cell i w hi hw
    exfalso
    obtain ⟨-, o', ho', hc⟩ := readLoc_cell h
    rw [ho] at ho'
    cases ho'
    rcases hi with hi | ⟨k, hi⟩ <;> rcases hc with hc | ⟨k', hc⟩ <;> rw [hi] at hc <;> cases hc <;> exact hv hw
  · cases hn.key i k w hi hw
    exfalso
    obtain ⟨-, o', ho', w', hc⟩ := readLoc_key h
    rw [ho] at ho'
    cases ho'
    rw [hi] at hc
    cases hc
    exact hv hw

theorem Trade.pure_none {l : Loc} {v : V α} (hv : ¬ v.IsRef) : Trade (some l) none (writeLoc l v) :=
  writeLoc_trade (fun h => absurd h hv) (fun l' hl h => by cases h; exact absurd rfl hl)

theorem boxRef_trade [Env α] (l : Loc) (a : Addr) (o : Obj α) (x : α) : Trade (some l) none (do
      if o.kind = .cdouble then do
        let b ← newHeap 1 (some .cdouble)
        setRaw b 0 x
        writeLoc l (.arr b)
        detachV (.arr a)
        pure l
      else do
        writeLoc l (.num o.kind x)
        detachV (.arr a)
        pure l : M α Loc) := by
  split
  · refine Trade.bind (e' := some l) (newHeap_pres _ _) (newHeap_nt _ _) fun b => ?_
    refine Trade.bind (e' := some l) (setRaw_pres _ _ _) (setRaw_nt _ _ _) fun _ => ?_
    refine Trade.bind (e' := none) (Trade.pure_none (by simp [V.IsRef])) (writeLoc_nt _ _) fun _ => ?_
    refine Trade.bind (e' := none) (detachV_pres _) (detachV_nt _) fun _ => Pres.pure l
  · refine Trade.bind (e' := none) (Trade.pure_none (by simp [V.IsRef])) (writeLoc_nt _ _) fun _ => ?_
    refine Trade.bind (e' := none) (detachV_pres _) (detachV_nt _) fun _ => Pres.pure l

theorem dereference_trade [Env α] (l : Loc) : Trade (some l) none (dereference l : M α Loc) := by
  intro s hs
  have h0 := readLoc_ro l s
  have h1 := readLoc_nt l s
  unfold dereference
  rw [bind_run]
  unfold M.bind
  cases hv : readLoc l s with
  | ok v s1 =>
    have : s1 = s := readLoc_ok hv
    subst this
    by_cases href : v.IsRef
    · cases v with
      | ref a i =>
        have key : Trade (some l) none (derefLoc a i >>= fun r? => match r? with
            | some r =>
              if r = l then do
                let o ← obj a
                writeLoc l (.bad o.kind)
                throwE (.error "var::dereference(): Unknown type")
              else do
                writeLoc l (.arr a)
                let w ← readLoc r
                match w with
                | .ref _ _ => undef .badPointer
                | w => do
                  attachV w
                  share l w
                  detachV w
                  pure r
            | none => do
              let o ← obj a
              let x ← rawAt a i
              if o.kind = .cdouble then do
                let b ← newHeap 1 (some .cdouble)
                setRaw b 0 x
                writeLoc l (.arr b)
                detachV (.arr a)
                pure l
              else do
                writeLoc l (.num o.kind x)
                detachV (.arr a)
                pure l : M α Loc) := by
          refine Trade.bind (e' := some l) (RO.pres (derefLoc_ro a i)) (derefLoc_nt a i) fun r? => ?_
          cases r? with
          | some r =>
            simp only
            split
            · refine Trade.bind (e' := some l) (RO.pres (obj_ro a)) (obj_nt a) fun o => ?_
              refine Trade.bind (e' := none) (Trade.pure_none (by simp [V.IsRef])) (writeLoc_nt _ _) fun _ => ?_
              exact fun _ h => h
            · refine Trade.bind (e' := none) (Trade.pure_none (by simp [V.IsRef])) (writeLoc_nt _ _) fun _ => ?_
              refine Trade.bind (e' := none) (RO.pres (readLoc_ro r)) (readLoc_nt r) fun w => ?_
              have tail : ∀ w : V α, ¬ w.IsRef → Pres none (do
                  attachV w
                  share l w
                  detachV w
                  pure r : M α Loc) := fun w hw =>
                .bind (attachV_pres w) fun _ => .bind (share_pres l hw) fun _ => .bind (detachV_pres w) fun _ => .pure r
              cases w with
              | ref b j => exact fun _ _ => trivial
              | nil => exact tail _ (by simp [V.IsRef])
              | bad k => exact tail _ (by simp [V.IsRef])
              | num k x => exact tail _ (by simp [V.IsRef])
              | arr b => exact tail _ (by simp [V.IsRef])
          | none =>
            refine Trade.bind (e' := some l) (RO.pres (obj_ro a)) (obj_nt a) fun o => ?_
            refine Trade.bind (e' := some l) (RO.pres (rawAt_ro a i)) (rawAt_nt a i) fun x => ?_
            exact boxRef_trade l a o x
        exact key s1 hs
      | _ => exact absurd href (by simp [V.IsRef])
    · have hn := hs.of_read hv href
      cases v with
      | ref a i => exact absurd trivial href
      | _ => exact hn
  | thrown x s1 => exact absurd hv (h1 x s1)
  | _ => trivial

theorem dereference_pres [Env α] (l : Loc) : Pres none (dereference l : M α Loc) :=
  fun s hs => dereference_trade l s hs.mono

theorem assignPlain_pres [Env α] (l : Loc) (v : V α) : Pres none (assignPlain l v) := by
  refine .withVar fun _ => .bind (RO.pres (readLoc_ro l)) fun t => ?_
  have h : Pres none (share l v >>= fun _ => dereference l >>= fun _ => pure () : M α Unit) :=
    Trade.bind (share_trade l v) (share_nt l v) fun _ => by
      intro s hs
      have h1 := dereference_trade l s hs
      rw [bind_run]
      unfold M.bind
      revert h1
      cases dereference l s <;> exact fun h => h
  cases t <;> first | exact h | exact Pres.undef

macro "pres1" : tactic => `(tactic| first
  | assumption
  | exact Pres.pure _
  | exact Pres.undef
  | exact Pres.throwE
  | exact Pres.abort
  | exact Pres.diverge
  | exact attachV_pres _
  | exact detachV_pres _
  | exact copyV_pres _
  | exact heapResize_pres _ _
  | exact newHeap_pres _ _
  | exact setRaw_pres _ _ _
  | exact dereference_pres _
  | exact assignPlain_pres _ _
  | exact writeLoc_pres (by simp [V.IsRef])
  | exact RO.pres (readLoc_ro _)
  | exact RO.pres (derefLoc_ro _ _)
  | exact RO.pres (derefV_ro _)
  | exact RO.pres (heapOf_ro _)
  | exact RO.pres (sizeV_ro _)
  | exact RO.pres (typeV_ro _)
  | exact RO.pres (definedV_ro _)
  | exact RO.pres (rawAt_ro _ _)
  | exact RO.pres (getV_ro _ _)
  | exact RO.pres (castV_ro _ _)
  | exact RO.pres getMem_ro
  | exact RO.pres (obj_ro _)
  | exact RO.pres (searchKeys_ro _ _ _ _ _)
  | exact RO.pres (keyFound_ro _ _ _)
  | refine Pres.withVar fun _ => ?_
  | refine Pres.bind ?_ fun _ => ?_
  | split)

macro "pres" : tactic => `(tactic| repeat' pres1)

theorem assign_pres [Env α] (l : Loc) (v : V α) : Pres none (assign l v) := by
  unfold assign
  pres

theorem reference_pres (v : V α) (i : Int) : Pres none (reference v i) := by
  unfold reference
  pres

theorem at'_pres [Env α] (v : V α) (i : Int) : Pres none (at' v i) := by
  have := reference_pres (α := α)
  unfold at'
  repeat' first | exact reference_pres _ _ | pres1

theorem setAt_pres [Env α] (t : V α) (i : Int) (v : V α) : Pres none (setAt t i v) := by
  unfold setAt
  repeat' first | exact at'_pres _ _ | exact assign_pres _ _ | pres1

theorem wrap_pres [Env α] (l : Loc) (n : Nat) : Pres none (wrap l n : M α Unit) := by
  unfold wrap
  repeat' first | exact setAt_pres _ _ _ | pres1

theorem resize_pres [Env α] (l : Loc) (n : Int) : Pres none (resize l n : M α Unit) := by
  unfold resize
  repeat' first | exact wrap_pres _ _ | pres1

theorem array_pres [Env α] (l : Loc) : Pres none (array l : M α Unit) := by
  unfold array
  repeat' first | exact wrap_pres _ _ | exact setAt_pres _ _ _ | pres1

theorem indexPlain_pres [Env α] (l : Loc) (i : Int) : Pres none (indexPlain l i : M α (V α)) := by
  unfold indexPlain
  repeat' first | exact resize_pres _ _ | exact array_pres _ | exact reference_pres _ _ | pres1

theorem index_pres [Env α] (l : Loc) (i : Int) : Pres none (index l i : M α (V α)) := by
  unfold index
  repeat' first | exact indexPlain_pres _ _ | pres1

theorem setIndex_pres [Env α] (l : Loc) (i : Int) (v : V α) : Pres none (setIndex l i v) := by
  unfold setIndex
  repeat' first | exact index_pres _ _ | exact assign_pres _ _ | pres1

theorem push_pres [Env α] (l : Loc) (v : V α) : Pres none (push l v) := by
  unfold push
  repeat' first | exact setIndex_pres _ _ _ | exact assign_pres _ _ | pres1

theorem pop_pres [Env α] (l : Loc) : Pres none (pop l : M α (V α)) := by
  unfold pop
  repeat' first | exact at'_pres _ _ | exact resize_pres _ _ | pres1

theorem attachAll_pres (l : List Addr) : Pres none (attachAll l : M α Unit) := by
  induction l with
  | nil => exact .pure _
  | cons a l ih => exact .bind (attachV_pres _) fun _ => ih

theorem moveUp_pres [Env α] (l : Loc) (d i n : Nat) : Pres none (moveUp l d i n : M α Unit) := by
  induction n generalizing i with
  | zero => exact .pure _
  | succ n ih =>
    unfold moveUp
    repeat' first | exact ih _ | exact at'_pres _ _ | exact setAt_pres _ _ _ | pres1

theorem copyIn_pres [Env α] (l lv : Loc) (p : Int) (i n : Nat) : Pres none (copyIn l lv p i n : M α Unit) := by
  induction n generalizing i with
  | zero => exact .pure _
  | succ n ih =>
    unfold copyIn
    repeat' first | exact ih _ | exact index_pres _ _ | exact setAt_pres _ _ _ | pres1

theorem movePairsUp_pres [Env α] (l : Loc) (i n : Nat) : Pres none (movePairsUp l i n : M α Unit) := by
  induction n generalizing i with
  | zero => exact .pure _
  | succ n ih =>
    unfold movePairsUp
    repeat' first | exact ih _ | exact at'_pres _ _ | exact setAt_pres _ _ _ | pres1

theorem kindAt_pres (l : Loc) : Pres none (kindAt l : M α (Option Kind)) := by
  unfold kindAt
  pres

theorem insert_pres [Env α] (l : Loc) (v : V α) (p : Nat) : Pres none (insert l v p) := by
  unfold insert
  repeat' first | exact kindAt_pres _ | exact resize_pres _ _ | exact moveUp_pres _ _ _ _ | exact setAt_pres _ _ _ |
    exact movePairsUp_pres _ _ _ | exact copyIn_pres _ _ _ _ _ | pres1

theorem moveDown_pres [Env α] (l : Loc) (i n : Nat) : Pres none (moveDown l i n : M α Unit) := by
  induction n generalizing i with
  | zero => exact .pure _
  | succ n ih =>
    unfold moveDown
    repeat' first | exact ih _ | exact at'_pres _ _ | exact setAt_pres _ _ _ | pres1

theorem copyObj_nice [Env α] {o o' : Obj α} (ho : ∀ c ∈ o.cells, c.Clean) (h : copyObj o = .ok o') (a : Addr) :
    NiceO none a o' := by
  unfold copyObj at h
  cases hr : resizeObj (⟨o.kind, 0, 1, []⟩ : Obj α) o.size with
  | ok p =>
    rw [hr, Outcome.bind_ok] at h
    have hp := newObj_nice (e := none) (a := a) hr
    have key : ∀ q : Obj α, (if o.size ≤ o.cells.length ∧ o.size ≤ p.cells.length then
        (.ok { p with cells := o.cells.take o.size ++ p.cells.drop o.size } : Outcome (Obj α)) else .ub .outOfBounds) = .ok q →
        NiceO none a q := by
      intro q hq
      split at hq
      · next hle =>
        cases hq
        refine .of_clean (fun c hc => ?_) ?_ ?_
        · rcases List.mem_append.1 hc with hc | hc
          · exact ho c (List.mem_of_mem_take hc)
          · exact hp.clean c (List.mem_of_mem_drop hc)
        · have := hp.fits
          have h2 := hle.2
          have h3 := hle.1
          simp only [Obj.need, List.length_append, List.length_take, List.length_drop] at this ⊢
          omega
        · have := hp.top
          have h2 := hle.2
          have h3 := hle.1
          simp only [List.length_append, List.length_take, List.length_drop]
          omega
      · cases hq
    revert h
    cases o.kind <;> intro h <;> first | exact key _ h | cases h
  | thrown e => rw [hr] at h; cases h
  | ub u => rw [hr] at h; cases h
  | abort => rw [hr] at h; cases h
  | diverge => rw [hr] at h; cases h

theorem copy_pres [Env α] (v : V α) : Pres none (copy v) := by
  unfold copy
  refine .bind (RO.pres (heapOf_ro _)) fun a? => ?_
  cases a? with
  | none => exact copyV_pres _
  | some a =>
    refine .obj fun o ho => .liftO fun o' ho' => .bind (attachAll_pres _) fun _ =>
      .bind (pushObj_pres (copyObj_nice ho.clean ho')) fun _ => .pure _

theorem remove_pres [Env α] (l : Loc) (i : Nat) : Pres none (remove l i : M α (V α)) := by
  unfold remove
  repeat' first | exact at'_pres _ _ | exact copy_pres _ | exact moveDown_pres _ _ _ | exact resize_pres _ _ | pres1

theorem boxed_pres [Env α] (k : Kind) (x : α) : Pres none (boxed k x) := by
  unfold boxed
  pres

theorem destroy_pres (l : List Addr) : Pres none (destroy l : M α Unit) := by
  induction l with
  | nil => exact .pure _
  | cons a l ih => exact .bind ih fun _ => detachV_pres _

theorem shiftedVars_nice {a : Addr} {o : Obj α} (h : NiceO none a o) (hz : ¬ (o.size = 0 ∨ o.cells.length < o.size)) : NiceO none a { o with cells := shiftedVars o } := by
  refine .of_clean (fun c hc => ?_) ?_ ?_
  · simp only [shiftedVars, List.mem_append, List.mem_cons] at hc
    rcases hc with hc | rfl | hc
    · exact h.clean c (List.mem_of_mem_take (List.mem_of_mem_drop hc))
    · exact freshCell_clean _
    · exact h.clean c (List.mem_of_mem_drop hc)
  · have := h.fits
    simp only [Obj.need, shiftedVars, List.length_append, List.length_drop, List.length_take, List.length_cons] at this ⊢
    omega
  · have := h.top
    simp only [shiftedVars, List.length_append, List.length_drop, List.length_take, List.length_cons]
    omega

theorem shiftedRaws_nice {a : Addr} {o : Obj α} (h : NiceO none a o) (hz : ¬ (o.size = 0 ∨ o.cells.length < o.size)) : NiceO none a { o with cells := shiftedRaws o } := by
  refine .of_clean (fun c hc => ?_) ?_ ?_
  · simp only [shiftedRaws, List.mem_append] at hc
    rcases hc with hc | hc
    · exact h.clean c (List.mem_of_mem_take (List.mem_of_mem_drop hc))
    · exact h.clean c (List.mem_of_mem_drop hc)
  · have := h.fits
    simp only [Obj.need, shiftedRaws, List.length_append, List.length_drop, List.length_take] at this ⊢
    omega
  · have := h.top
    simp only [shiftedRaws, List.length_append, List.length_drop, List.length_take]
    omega

theorem unshifted_nice {a : Addr} {o : Obj α} {c : Cell α} (hc : c.Clean) (h : NiceO none a o) (hz : ¬ o.cells.length < o.size)
    (hl : o.size ≠ 0) :
    NiceO none a { o with cells := unshifted c o } := by
  refine .of_clean (fun d hd => ?_) ?_ ?_
  · simp only [unshifted, List.mem_append, List.mem_cons] at hd
    rcases hd with rfl | hd | hd
    · exact hc
    · exact h.clean d (List.mem_of_mem_take hd)
    · exact h.clean d (List.mem_of_mem_drop hd)
  · have := h.fits
    simp only [Obj.need, unshifted, List.length_append, List.length_drop, List.length_take, List.length_cons] at this ⊢
    omega
  · have := h.top
    simp only [unshifted, List.length_append, List.length_drop, List.length_take, List.length_cons]
    omega

theorem heapShift_pres [Env α] (a : Addr) : Pres none (heapShift a : M α (V α)) := by
  unfold heapShift
  refine .obj fun o ho => ?_
  split
  · exact .undef
  · next hz =>
    split
    · unfold shiftVars
      split
      · exact .undef
      · repeat' first | exact setObj_pres (shiftedVars_nice ho hz) | exact destroy_pres _ | pres1
    · unfold shiftNums
      repeat' first | exact setObj_pres (shiftedRaws_nice ho hz) | exact boxed_pres _ _ | pres1

theorem shift_pres [Env α] (l : Loc) : Pres none (shift l : M α (V α)) := by
  unfold shift
  repeat' first | exact heapShift_pres _ | pres1

theorem heapUnshift_pres [Env α] (a : Addr) (v : V α) : Pres none (heapUnshift a v) := by
  unfold heapUnshift
  refine .withVar fun _ => .bind (RO.pres (obj_ro a)) fun _ => .resized fun o ho hsz => ?_
  split
  · unfold unshiftVars
    split
    · exact .undef
    · next hz =>
      repeat' first | exact setObj_pres (unshifted_nice (by simp [Cell.Clean, V.IsRef]) ho hz (by omega)) | pres1
  · split
    · exact .throwE
    · unfold unshiftNums
      split
      · exact .undef
      next hz =>
      split
      · exact .undef
      · next c rest hc =>
        have hcl : c.Clean := ho.clean c (by rw [hc]; exact List.mem_cons_self)
        repeat' first | exact setObj_pres (unshifted_nice hcl ho hz (by omega)) | pres1

theorem unshift_pres [Env α] (l : Loc) (v : V α) : Pres none (unshift l v) := by
  unfold unshift
  repeat' first | exact heapUnshift_pres _ _ | exact assign_pres _ _ | exact array_pres _ | pres1

theorem makeMap_pres [Env α] (r : Loc) : Pres none (makeMap r : M α Unit) := by
  unfold makeMap
  pres

theorem mapIndex_pres [Env α] (l : Loc) (v : V α) : Pres none (mapIndex l v) := by
  unfold mapIndex
  repeat' first | exact makeMap_pres _ | exact reference_pres _ _ | exact insert_pres _ _ _ | pres1

theorem mapAt_pres [Env α] (t v : V α) : Pres none (mapAt t v) := by
  unfold mapAt
  repeat' first | exact reference_pres _ _ | pres1

theorem newStr_pres [Env α] (cs : List α) : Pres none (newStr cs) := by
  unfold newStr
  refine .liftO fun o ho => .bind (pushObj_pres fun a => ?_) fun _ => .pure _
  have h := newObj_nice (e := none) (a := a) ho
  obtain ⟨h1, h2, h3, h4⟩ := resizeObj_nice ho
  refine .of_clean (fun c hc => ?_) ?_ ?_
  · rcases List.mem_append.1 hc with hc | hc
    · obtain ⟨x, -, rfl⟩ := List.mem_map.1 hc
      trivial
    · exact h.clean c (List.mem_of_mem_drop hc)
  · have := h.fits
    simp only [Obj.need, List.length_append, List.length_drop, List.length_map] at this ⊢
    omega
  · have := h.top
    have := resizeObj_ends rfl ho
    simp only [List.length_append, List.length_drop, List.length_map]
    omega

theorem newNum_pres [Env α] (k : Kind) (x : α) : Pres none (newNum k x) := by
  unfold newNum
  repeat' first | exact boxed_pres _ _ | pres1

theorem broadcast_pres [Env α] {sc : V α → Loc → M α Unit} (h : ∀ v l, Pres none (sc v l)) (v : V α) (lo : Loc) (n : Nat) : ∀ i, Pres none (broadcast sc v lo i n) := by
  induction n with
  | zero => exact fun i => .pure _
  | succ n ih =>
    intro i
    unfold broadcast
    repeat' first | exact at'_pres _ _ | exact h _ _ | exact ih _ | pres1

theorem scalar_pres [Env α] (F : Fn α) (d : Nat) : ∀ (v : V α) (lo : Loc), Pres none (scalar F d v lo) := by
  induction d with
  | zero => exact fun v lo => .diverge
  | succ d ih =>
    intro v lo
    unfold scalar
    repeat' first | exact RO.pres (mathType_ro _) | exact broadcast_pres ih _ _ _ _ | exact newNum_pres _ _ | exact assign_pres _ _ | pres1

theorem applyTo_pres [Env α] (F : Fn α) (d n m : Nat) : Pres none (applyTo F d n m) := by
  unfold applyTo
  repeat' first | exact scalar_pres _ _ _ _ | pres1

theorem applyNew_pres [Env α] (F : Fn α) (d n : Nat) : Pres none (applyNew F d n) := by
  unfold applyNew
  repeat' first | exact scalar_pres _ _ _ _ | exact assign_pres _ _ | pres1

theorem strCall_pres [Env α] {S : StrFn α} (h : ∀ b v l, Pres none (S b v l)) (d : Nat) : ∀ (same : Bool) (v : V α) (lo : Loc), Pres none (strCall S d same v lo) := by
  induction d with
  | zero => exact fun same v lo => .diverge
  | succ d ih =>
    intro same v lo
    unfold strCall
    repeat' first | exact RO.pres (atypeV_ro _) | exact h _ _ _ | exact broadcast_pres (ih false) _ _ _ _ | pres1

theorem strTo_pres [Env α] {S : StrFn α} (h : ∀ b v l, Pres none (S b v l)) (d n m : Nat) : Pres none (strTo S d n m) := by
  unfold strTo
  repeat' first | exact strCall_pres h _ _ _ _ | pres1

theorem strNew_pres [Env α] {S : StrFn α} (h : ∀ b v l, Pres none (S b v l)) (d n : Nat) : Pres none (strNew S d n) := by
  unfold strNew
  repeat' first | exact strCall_pres h _ _ _ _ | exact assign_pres _ _ | pres1

theorem mapChars_pres (f : α → α) (v : V α) (lo : Loc) (n : Nat) : ∀ i, Pres none (mapChars f v lo i n) := by
  induction n with
  | zero => exact fun i => .pure _
  | succ n ih =>
    intro i
    unfold mapChars setChar
    repeat' first | exact RO.pres (charAt_ro _ _) | exact ih _ | pres1

theorem putMatches_pres [Env α] (a : Option Addr) (lo : Loc) (ms : List (Nat × Nat)) : ∀ i, Pres none (putMatches a lo i ms : M α Unit) := by
  induction ms with
  | nil => exact fun i => .pure _
  | cons m ms ih =>
    intro i
    unfold putMatches
    repeat' first | exact RO.pres (matched_ro _ _ _) | exact newStr_pres _ | exact setIndex_pres _ _ _ | exact ih _ | pres1

theorem moveChars_pres (a : Addr) (j d n : Nat) : ∀ i, Pres none (moveChars a j d i n : M α Unit) := by
  induction n with
  | zero => exact fun i => .pure _
  | succ n ih =>
    intro i
    unfold moveChars
    repeat' first | exact ih _ | pres1

theorem copyChars_pres (v : V α) (op : Option (Addr × Nat)) (d n : Nat) : ∀ i, Pres none (copyChars v op d i n) := by
  induction n with
  | zero => exact fun i => .pure _
  | succ n ih =>
    intro i
    unfold copyChars
    repeat' first | exact RO.pres (charAt_ro _ _) | exact ih _ | pres1

theorem StrOp.fn_pres [Env α] (S : StrOp α) (same : Bool) (v : V α) (lo : Loc) : Pres none (S.fn same v lo) := by
  cases S with
  | case f =>
    show Pres none (mapCase f same v lo)
    unfold mapCase
    repeat' first | exact RO.pres (isSame_ro _ _ _) | exact mapChars_pres _ _ _ _ _ | exact newStr_pres _ | exact assign_pres _ _ | exact resize_pres _ _ | pres1
  | find re =>
    show Pres none (findIn re same v lo)
    unfold findIn
    repeat' first | exact RO.pres (textV_ro _) | exact putMatches_pres _ _ _ _ | exact assign_pres _ _ | pres1
  | replace re =>
    show Pres none (replaceIn re same v lo)
    unfold replaceIn
    repeat' first | exact RO.pres (textV_ro _) | exact newStr_pres _ | exact assign_pres _ _ | pres1
  | strip sp =>
    show Pres none (stripIn sp same v lo)
    unfold stripIn stripMove
    repeat' first | exact RO.pres (isSame_ro _ _ _) | exact RO.pres (charPtr_ro _) | exact RO.pres (leading_ro _ _ _ _) | exact RO.pres (trailing_ro _ _ _ _) | exact moveChars_pres _ _ _ _ _ |
      exact copyChars_pres _ _ _ _ _ | exact newStr_pres _ | exact assign_pres _ _ | exact resize_pres _ _ | pres1

theorem setPtr_pres (k : Kind) (lo : Loc) (i : Nat) (x : α) : Pres none (setPtr k lo i x) := by
  unfold setPtr setPlain setTyped
  repeat' pres1

theorem scaleLoop_pres (F : Bin α) (k : Kind) (v : V α) (y : α) (lo : Loc) (n : Nat) : ∀ j, Pres none (scaleLoop F k v y lo j n) := by
  induction n with
  | zero => exact fun j => .pure _
  | succ n ih =>
    exact fun j => .bind (RO.pres (elemAt_ro v j)) fun x => .bind (RO.pres (F.apply_ro k x y)) fun z => .bind (setPtr_pres k lo j z) fun _ => ih (j + 1)

theorem vecLoop_pres (F : Bin α) (k : Kind) (v w : V α) (lo : Loc) (n : Nat) : ∀ j, Pres none (vecLoop F k v w lo j n) := by
  induction n with
  | zero => exact fun j => .pure _
  | succ n ih =>
    exact fun j => .bind (RO.pres (elemAt_ro w j)) fun y => .bind (RO.pres (elemAt_ro v j)) fun x => .bind (RO.pres (F.apply_ro k x y)) fun z =>
      .bind (setPtr_pres k lo j z) fun _ => ih (j + 1)

theorem arithArr_pres [Env α] (F : Bin α) {sc : V α → Loc → M α Unit} (h : ∀ v l, Pres none (sc v l)) (v w : V α) (lv lw lo : Loc) : Pres none (arithArr F sc v w lv lw lo) := by
  unfold arithArr scaleArr vectorArr
  repeat' first | exact RO.pres (atypeV_ro _) | exact RO.pres (isSame_ro _ _ _) | exact broadcast_pres h _ _ _ _ | exact scaleLoop_pres _ _ _ _ _ _ _ | exact vecLoop_pres _ _ _ _ _ _ _ |
    exact index_pres _ _ | exact fun s _ => trivial | pres1

theorem arith_pres [Env α] (F : Bin α) (d : Nat) : ∀ (v w : V α) (lo : Loc), Pres none (arith F d v w lo) := by
  induction d with
  | zero => exact fun v w lo => .diverge
  | succ d ih =>
    intro v w lo
    unfold arith Bin.store
    repeat' first | exact RO.pres (mathType_ro _) | exact RO.pres (F.apply_ro _ _ _) | exact arithArr_pres F (fun t l => ih t w l) _ _ _ _ _ | exact newNum_pres _ _ | exact assign_pres _ _ |
      exact setPtr_pres _ _ _ _ | pres1

theorem arithTo_pres [Env α] (F : Bin α) (d n : Nat) (w : V α) (m : Nat) : Pres none (arithTo F d n w m) := by
  unfold arithTo
  repeat' first | exact arith_pres _ _ _ _ _ | pres1

theorem arithNew_pres [Env α] (F : Bin α) (d n : Nat) (w : V α) : Pres none (arithNew F d n w) := by
  unfold arithNew
  repeat' first | exact arith_pres _ _ _ _ _ | exact assign_pres _ _ | pres1

theorem eval_pres [Env α] (e : Exp α) : Pres none (eval e) := by
  induction e with
  | nil => exact .pure _
  | num k x =>
    show Pres none (newNum k x)
    unfold newNum
    repeat' first | exact boxed_pres _ _ | pres1
  | str cs => exact newStr_pres cs
  | name n => exact .bind (RO.pres (readLoc_ro _)) fun _ => copyV_pres _
  | elem n i => exact index_pres _ _
  | «at» n i => exact .bind (RO.pres (readLoc_ro _)) fun _ => at'_pres _ _
  | top n => exact .bind (RO.pres (readLoc_ro _)) fun _ => .bind (RO.pres (sizeV_ro _)) fun _ => at'_pres _ _
  | key n k ih => exact .bind ih fun _ => mapIndex_pres _ _
  | atKey n k ih =>
    exact .bind ih fun _ => .withVar fun _ => .bind (RO.pres (readLoc_ro _)) fun _ => mapAt_pres _ _
  | copy n => exact .bind (RO.pres (readLoc_ro _)) fun _ => copy_pres _
  | pop n => exact pop_pres _
  | shift n => exact shift_pres _
  | remove n i => exact remove_pres _ _
  | math F d n => exact applyNew_pres F d n
  | mathTo F d n m => exact applyTo_pres F d n m
  | text S d n => exact strNew_pres S.fn_pres d n
  | textTo S d n m => exact strTo_pres S.fn_pres d n m
  | arith F d n e ih => exact .bind ih fun _ => arithNew_pres F d n _
  | arithTo F d n e m ih => exact .bind ih fun _ => arithTo_pres F d n _ m
  | move n => exact .bind (RO.pres (readLoc_ro _)) fun _ => .bind (writeLoc_pres (by simp [V.IsRef])) fun _ => .pure _

theorem fillRaw_pres (a : Addr) (xs : List α) : ∀ i, Pres none (fillRaw a i xs) := by
  induction xs with
  | nil => exact fun i s hs => hs
  | cons x xs ih => exact fun i => .bind (setRaw_pres a i x) fun _ => ih (i + 1)

theorem heapAt_pres [Env α] (a : Addr) (i : Nat) : Pres none (heapAt a i : M α (V α)) := by
  unfold heapAt
  repeat' first | exact boxed_pres _ _ | pres1

theorem pairwise_pres [Env α] {f : V α → V α → M α Bool} (h : ∀ v w, Pres none (f v w)) (a : Addr) (b : Option Addr) (i : Nat) : Pres none (pairwise f a b i) := by
  unfold pairwise
  repeat' first | exact heapAt_pres _ _ | exact h _ _ | pres1

theorem anyLoop_pres {f : Nat → M α Bool} (h : ∀ i, Pres none (f i)) (n : Nat) : ∀ i, Pres none (anyLoop f i n) := by
  induction n with
  | zero => exact fun i => .pure _
  | succ n ih =>
    intro i
    unfold anyLoop
    repeat' first | exact h _ | exact ih _ | pres1

theorem neqV_pres [Env α] (N : Numbers α) (n : Nat) : ∀ v w, Pres none (neqV N n v w) := by
  induction n with
  | zero => exact fun v w => .diverge
  | succ n ih =>
    intro v w
    unfold neqV
    repeat' first | exact anyLoop_pres (pairwise_pres ih _ _) _ _ | pres1

theorem cmpChars_pres (N : Numbers α) (a b : Addr) (n : Nat) : ∀ i, Pres none (cmpChars N a b i n) := by
  induction n with
  | zero => exact fun i => .undef
  | succ n ih =>
    intro i
    unfold cmpChars
    repeat' first | exact ih _ | pres1

theorem ltV_pres [Env α] (N : Numbers α) (n : Nat) : ∀ v w, Pres none (ltV N n v w) := by
  induction n with
  | zero => exact fun v w => .diverge
  | succ n ih =>
    intro v w
    unfold ltV heapLt
    repeat' first | exact anyLoop_pres (pairwise_pres ih _ _) _ _ | exact cmpChars_pres _ _ _ _ _ | pres1

theorem callOp_pres {f : V α → V α → M α Bool} (h : ∀ v w, Pres none (f v w)) (v w : V α) : Pres none (callOp f v w) := by
  unfold callOp
  repeat' first | exact h _ _ | pres1

theorem eqV_pres [Env α] (N : Numbers α) (n : Nat) (v w : V α) : Pres none (eqV N n v w) := by
  unfold eqV
  repeat' first | exact callOp_pres (neqV_pres N n) _ _ | pres1

theorem keyAt_pres (v : V α) (i : Nat) : Pres none (keyAt v i) := by
  unfold keyAt
  repeat' first | exact RO.pres (atypeV_ro _) | pres1

theorem searchV_pres [Env α] (N : Numbers α) (n : Nat) {x : Nat → M α (V α)} (h : ∀ p, Pres none (x p)) (w : V α) (f : Nat) : ∀ lo hi, Pres none (searchV N n x w f lo hi) := by
  induction f with
  | zero => exact fun lo hi => .diverge
  | succ f ih =>
    intro lo hi
    unfold searchV
    repeat' first | exact h _ | exact callOp_pres (ltV_pres N n) _ _ | exact ih _ _ | pres1

theorem binaryV_pres [Env α] (N : Numbers α) (n : Nat) (v w : V α) : Pres none (binaryV N n v w) := by
  unfold binaryV
  repeat' first | exact searchV_pres N n (fun p => at'_pres _ _) _ _ _ _ | exact searchV_pres N n (fun p => keyAt_pres _ _) _ _ _ _ | pres1

theorem findLoop_pres {f : Nat → M α Bool} (h : ∀ i, Pres none (f i)) (m : Nat) : ∀ i, Pres none (findLoop f i m) := by
  induction m with
  | zero => exact fun i => .pure _
  | succ m ih =>
    intro i
    unfold findLoop
    repeat' first | exact h _ | exact ih _ | pres1

theorem indexV_pres [Env α] (N : Numbers α) (n : Nat) (v w : V α) : Pres none (indexV N n v w) := by
  unfold indexV
  repeat' first | exact RO.pres (atypeV_ro _) | exact binaryV_pres N n _ _ | exact eqV_pres N n _ _ |
    exact findLoop_pres (fun i => .bind (at'_pres _ _) fun _ => .withVar fun _ => .bind (RO.pres (readLoc_ro _)) fun _ => eqV_pres N n _ _) _ _ | pres1

theorem sortFrom_pres [Env α] (N : Numbers α) (n : Nat) (v : V α) (r : Loc) (m : Nat) : ∀ i, Pres none (sortFrom N n v r i m) := by
  induction m with
  | zero => exact fun i => .pure _
  | succ m ih =>
    intro i
    unfold sortFrom
    repeat' first | exact at'_pres _ _ | exact binaryV_pres N n _ _ | exact insert_pres _ _ _ | exact ih _ | pres1

theorem presize_pres [Env α] (l : Loc) (n : Int) : Pres none (presize l n : M α Unit) :=
  .bind (RO.pres (readLoc_ro _)) fun _ => .bind (RO.pres (sizeV_ro _)) fun _ => .bind (resize_pres _ _) fun _ => resize_pres _ _

theorem sortV_pres [Env α] (N : Numbers α) (n : Nat) (v : V α) : Pres none (sortV N n v) := by
  unfold sortV
  repeat' first | exact presize_pres _ _ | exact sortFrom_pres N n _ _ _ _ | pres1

theorem putChars_pres [Env α] [DecidableEq α] (p : Printer α) (a : Addr) (n : Nat) : ∀ i, Pres none (putChars p a i n) := by
  induction n with
  | zero => exact fun i => .undef
  | succ n ih =>
    intro i
    unfold putChars
    repeat' first | exact ih _ | pres1

theorem putLoop_pres {f : Nat → M α CString.Bytes} (h : ∀ i, Pres none (f i)) (n : Nat) : ∀ i, Pres none (putLoop f i n) := by
  induction n with
  | zero => exact fun i => .pure _
  | succ n ih => exact fun i => .bind (h i) fun _ => .bind (ih _) fun _ => .pure _

theorem putVar_pres {f : Loc → M α CString.Bytes} (h : ∀ l, Pres none (f l)) (v : V α) : Pres none (putVar f v) := by
  unfold putVar
  repeat' first | exact h _ | pres1

theorem formatArray_pres [Env α] [DecidableEq α] (p : Printer α) {f : Nat → Loc → M α CString.Bytes} (h : ∀ i l, Pres none (f i l)) (ind : Nat) (l : Loc) :
    Pres none (formatArray p f ind l) := by
  have hp : ∀ v, Pres none (putVar (f 0) v) := putVar_pres (h 0)
  unfold formatArray
  refine .bind (RO.pres (readLoc_ro l)) fun v => .bind (RO.pres (atypeV_ro v)) fun k => ?_
  split
  · refine .bind (RO.pres (charPtr_ro v)) fun x => ?_
    repeat' first | exact putChars_pres p _ _ _ | pres1
  · refine .bind (RO.pres (sizeV_ro v)) fun n => .bind (putLoop_pres (fun i => ?_) _ _) fun _ => .pure _
    repeat' first | exact keyAt_pres _ _ | exact hp _ | exact index_pres _ _ | exact h _ _ | pres1
  · refine .bind (RO.pres (sizeV_ro v)) fun n => .bind (putLoop_pres (fun i => ?_) _ _) fun _ => .pure _
    repeat' first | exact index_pres _ _ | exact h _ _ | pres1
  · refine .bind (RO.pres (charPtr_ro v)) fun x => ?_
    repeat' first | exact putLoop_pres (fun i => .pure _) _ _ | pres1
  · refine .bind (RO.pres (sizeV_ro v)) fun n => .bind (putLoop_pres (fun i => ?_) _ _) fun _ => .pure _
    repeat' first | exact at'_pres _ _ | exact hp _ | pres1

theorem format_pres [Env α] [DecidableEq α] (p : Printer α) (n : Nat) : ∀ ind l, Pres none (format p n ind l) := by
  induction n with
  | zero => exact fun ind l => .diverge
  | succ n ih =>
    intro ind l
    unfold format
    repeat' first | exact formatArray_pres p ih _ _ | pres1

theorem run_pres [Env α] (st : Stmt α) : Pres none (run st) := by
  cases st with
  | decl e => exact .bind (eval_pres e) fun _ => fun s hs => hs.stk rfl
  | leave =>
    intro s hs
    unfold run
    simp only
    cases s.stk.getLast? with
    | none => trivial
    | some v => exact detachV_pres (e := none) v { s with stk := s.stk.dropLast } (hs.stk rfl)
  | assign n e => exact .bind (eval_pres e) fun _ => assign_pres _ _
  | setElem n i e => exact .bind (eval_pres e) fun _ => setIndex_pres _ _ _
  | setAt n i e => exact .bind (eval_pres e) fun _ => .bind (RO.pres (readLoc_ro _)) fun _ => setAt_pres _ _ _
  | setKey n k e =>
    exact .bind (eval_pres e) fun _ => .withVar fun _ => .bind (eval_pres _) fun _ => .withVar fun _ =>
      .bind (attachV_pres _) fun _ => assign_pres _ _
  | push n e => exact .bind (eval_pres e) fun _ => push_pres _ _
  | unshift n e => exact .bind (eval_pres e) fun _ => unshift_pres _ _
  | insert n e p => exact .bind (eval_pres e) fun _ => insert_pres _ _ _
  | resize n k => exact resize_pres _ _
  | array n => exact array_pres _
  | clear n => exact assign_pres _ _
  | presize n k => exact .bind (RO.pres (readLoc_ro _)) fun _ => .bind (RO.pres (sizeV_ro _)) fun _ => .bind (resize_pres _ _) fun _ => resize_pres _ _
  | append n k xs =>
    refine .bind (array_pres _) fun _ => .bind (RO.pres (readLoc_ro _)) fun v => .bind (RO.pres (heapOf_ro v)) fun x => ?_
    split
    · refine .bind (RO.pres (obj_ro _)) fun o => .bind (heapResize_pres _ _) fun _ => ?_
      split
      · exact fillRaw_pres _ xs _
      · exact .undef
    · exact .undef
  | appendVar n e =>
    exact .bind (eval_pres e) fun _ => .bind (RO.pres (readLoc_ro _)) fun _ => .bind (RO.pres (sizeV_ro _)) fun _ => insert_pres _ _ _
  | eval e => exact .bind (eval_pres e) fun _ => detachV_pres _
  | differ N d n m => exact .bind (.bind (RO.pres (readLoc_ro _)) fun _ => .bind (RO.pres (readLoc_ro _)) fun _ => callOp_pres (neqV_pres N d) _ _) fun _ => .pure _
  | equal N d n m => exact .bind (.bind (RO.pres (readLoc_ro _)) fun _ => .bind (RO.pres (readLoc_ro _)) fun _ => eqV_pres N d _ _) fun _ => .pure _
  | less N d n m => exact .bind (.bind (RO.pres (readLoc_ro _)) fun _ => .bind (RO.pres (readLoc_ro _)) fun _ => callOp_pres (ltV_pres N d) _ _) fun _ => .pure _
  | find N d n m =>
    exact .bind (.bind (RO.pres (readLoc_ro _)) fun _ => .bind (copyV_pres _) fun _ => .withVar fun _ => .bind (RO.pres (readLoc_ro _)) fun _ =>
      .bind (RO.pres (readLoc_ro _)) fun _ => indexV_pres N d _ _) fun _ => .pure _
  | sort N d n => exact .bind (RO.pres (readLoc_ro _)) fun _ => .bind (sortV_pres N d _) fun _ => fun s hs => hs.stk rfl
  | print h p d n =>
    exact .bind (.bind (RO.pres (readLoc_ro _)) fun _ => .bind (copyV_pres _) fun _ => putVar_pres (format_pres p d 0) _) fun _ => .pure _

/-- It is so in every state a program can reach. -/
theorem reach_nice [Env α] {s : State α} (h : Reach s) : Nice none s := by
  induction h with
  | start => intro a o ho; cases ho
  | @ok s s' st _ hr ih =>
    have := run_pres st s ih
    rw [hr] at this
    exact this
  | @thrown s s' st e _ hr ih =>
    have := run_pres st s ih
    rw [hr] at this
    exact this

end Libube.Mem

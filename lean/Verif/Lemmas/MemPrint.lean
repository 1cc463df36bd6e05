import Verif.Spec.MemPrint
import Verif.Lemmas.MemUnary
import Verif.Lemmas.MemString
import Verif.Lemmas.MemComplex

/-! # Lemmas about printing -/

namespace Libube.Mem

open MemSpec CString

variable {α : Type}

/-- One var more refers to what `v` refers to. -/
def bump (v : V α) (mem : List (Option (Obj α))) : List (Option (Obj α)) :=
  match v.ptr with
  | none => mem
  | some a =>
    match mem[a]? with
    | some (some o) => mem.set a (some { o with rc := o.rc + 1 })
    | _ => mem

/-- Arrays that are there have a count. -/
def Counted (mem : List (Option (Obj α))) : Prop := ∀ (a : Addr) (o : Obj α), mem[a]? = some (some o) → 0 < o.rc

/-- What the var refers to is there. -/
def Alive (v : V α) (mem : List (Option (Obj α))) : Prop := ∀ a, v.ptr = some a → Live mem a

theorem bump_get (v : V α) (mem : List (Option (Obj α))) (b : Addr) :
    (bump v mem)[b]? = if v.ptr = some b then mem[b]?.map (Option.map fun o => { o with rc := o.rc + 1 }) else mem[b]? := by
  unfold bump
  cases hv : v.ptr with
  | none => simp
  | some a =>
    simp only [Option.some.injEq]
    by_cases hab : a = b
    · subst hab
      simp only [if_true]
      cases hm : mem[a]? with
      | none => simp [hm]
      | some x =>
        cases x with
        | none => simp [hm]
        | some o =>
          have := lt_of_alive hm
          simp [this]
    · simp only [hab, if_false]
      cases hm : mem[a]? with
      | none => rfl
      | some x =>
        cases x with
        | none => rfl
        | some o => exact List.getElem?_set_ne hab

theorem bump_comm (v w : V α) (mem : List (Option (Obj α))) : bump v (bump w mem) = bump w (bump v mem) := by
  apply List.ext_getElem?
  intro b
  simp only [bump_get]
  split <;> split <;> rfl

theorem bump_is {mem : List (Option (Obj α))} {a : Addr} {k : Kind} {n : Nat} {cells : List (Cell α)} (v : V α) (h : Is mem a k n cells) :
    Is (bump v mem) a k n cells := by
  obtain ⟨rc, h⟩ := h
  by_cases hv : v.ptr = some a
  · exact ⟨rc + 1, by rw [bump_get, if_pos hv, h]; rfl⟩
  · exact ⟨rc, by rw [bump_get, if_neg hv, h]⟩

theorem bump_live {mem : List (Option (Obj α))} {a : Addr} (v : V α) (h : Live mem a) : Live (bump v mem) a := by
  obtain ⟨o, h⟩ := h
  obtain ⟨rc, h⟩ := bump_is v (k := o.kind) (n := o.size) (cells := o.cells) ⟨o.rc, h⟩
  exact ⟨_, h⟩

theorem bump_alive {mem : List (Option (Obj α))} {w : V α} (v : V α) (h : Alive w mem) : Alive w (bump v mem) :=
  fun a ha => bump_live v (h a ha)

theorem bump_counted {mem : List (Option (Obj α))} (v : V α) (h : Counted mem) : Counted (bump v mem) := by
  intro b o hb
  rw [bump_get] at hb
  split at hb
  · cases hm : mem[b]? with
    | none => simp [hm] at hb
    | some x =>
      cases x with
      | none => simp [hm] at hb
      | some o' =>
        simp [hm] at hb
        subst hb
        simp
  · exact h b o hb

theorem bump_deno {mem : List (Option (Obj α))} {w x : V α} (v : V α) (h : Deno mem w x) : Deno (bump v mem) w x := by
  cases h with
  | self h => exact .self h
  | var h1 h2 h3 h4 h5 => exact .var (bump_is v h1) h2 h3 h4 h5
  | num h1 h2 h3 h4 => exact .num (bump_is v h1) h2 h3 h4

theorem bump_obj {mem : List (Option (Obj α))} {a : Addr} {o : Obj α} (v : V α) (h : mem[a]? = some (some o)) :
    ∃ o', (bump v mem)[a]? = some (some o') ∧ o'.kind = o.kind ∧ o'.size = o.size ∧ o'.cells = o.cells := by
  obtain ⟨rc, h⟩ := bump_is v (k := o.kind) (n := o.size) (cells := o.cells) ⟨o.rc, h⟩
  exact ⟨_, h, rfl, rfl, rfl⟩

/-- The same arrays, whatever their counts. -/
def SameArrays (mem mem' : List (Option (Obj α))) : Prop := ∀ (a : Addr) (o : Obj α), mem[a]? = some (some o) →
  ∃ o', mem'[a]? = some (some o') ∧ o'.kind = o.kind ∧ o'.size = o.size ∧ o'.cells = o.cells

theorem bump_same (v : V α) (mem : List (Option (Obj α))) : SameArrays mem (bump v mem) := fun _ _ h => bump_obj v h

theorem bump_back (v : V α) (mem : List (Option (Obj α))) : SameArrays (bump v mem) mem := by
  intro a o h
  rw [bump_get] at h
  split at h
  · cases hm : mem[a]? with
    | none => simp [hm] at h
    | some x =>
      cases x with
      | none => simp [hm] at h
      | some o' =>
        simp [hm] at h
        subst h
        exact ⟨o', rfl, rfl, rfl, rfl⟩
  · exact ⟨o, h, rfl, rfl, rfl⟩

theorem same_data [Env α] {mem mem' : List (Option (Obj α))} {w : V α} {d : Data α} (hs : SameArrays mem mem') (h : IsData mem w d) : IsData mem' w d := by
  induction h with
  | nil => exact .nil
  | num h => exact .num h
  | str h1 h2 h3 h4 =>
    obtain ⟨o', g1, g2, g3, g4⟩ := hs _ _ h1
    exact .str g1 (by rw [g2]; exact h2) h3 (by rw [g4]; exact h4)
  | nums h1 h2 h3 h4 =>
    obtain ⟨o', g1, g2, g3, g4⟩ := hs _ _ h1
    exact .nums g1 h2 h3 (by unfold Elements; rw [g2, g3, g4]; exact h4)
  | cplx h1 h4 =>
    obtain ⟨o', g1, g2, g3, g4⟩ := hs _ _ h1
    exact .cplx g1 (by unfold Elements; rw [g2, g3, g4]; exact h4)
  | list h1 h2 h3 h4 _ ih =>
    obtain ⟨o', g1, g2, g3, g4⟩ := hs _ _ h1
    exact .list g1 (by rw [g2]; exact h2) (by rw [g3]; exact h3) (by rw [g4]; exact h4) ih
  | map h1 h2 h3 h4 _ _ ih1 ih2 =>
    obtain ⟨o', g1, g2, g3, g4⟩ := hs _ _ h1
    exact .map g1 (by rw [g2]; exact h2) (by rw [g3]; exact h3) (by rw [g4]; exact h4) ih1 ih2

theorem bump_data [Env α] {mem : List (Option (Obj α))} {w : V α} {d : Data α} (v : V α) : IsData (bump v mem) w d ↔ IsData mem w d :=
  ⟨same_data (bump_back v mem), same_data (bump_same v mem)⟩

theorem attach_bump {mem : List (Option (Obj α))} {stk : List (V α)} {v : V α} (h : Alive v mem) :
    attachV v ⟨mem, stk⟩ = .ok () ⟨bump v mem, stk⟩ := by
  cases hv : v.ptr with
  | none =>
    rw [attach_none hv]
    simp [bump, hv]
  | some a =>
    obtain ⟨o, ho⟩ := h a hv
    rw [attach_run hv ho]
    simp [bump, hv, ho, upd]

theorem detach_bump {mem : List (Option (Obj α))} {stk : List (V α)} {v : V α} (hc : Counted mem) (h : Alive v mem) :
    detachV v ⟨bump v mem, stk⟩ = .ok () ⟨mem, stk⟩ := by
  cases hv : v.ptr with
  | none =>
    rw [detach_none hv]
    simp [bump, hv]
  | some a =>
    obtain ⟨o, ho⟩ := h a hv
    have hp := hc a o ho
    have e : (⟨bump v mem, stk⟩ : State α) = upd ⟨mem, stk⟩ a { o with rc := o.rc + 1 } := by
      simp [bump, hv, ho, upd]
    rw [e, detach_upd (x := some o) hv ho (by simp; omega)]
    simp only [Nat.add_sub_cancel]
    rw [upd_self (o := o) (s := ⟨mem, stk⟩) ho]

theorem copy_bump {mem : List (Option (Obj α))} {stk : List (V α)} {v : V α} (h : Alive v mem) :
    copyV v ⟨mem, stk⟩ = .ok v ⟨bump v mem, stk⟩ := by
  unfold copyV
  rw [bind_eq (attach_bump h)]
  rfl

theorem with_bump {mem : List (Option (Obj α))} {stk : List (V α)} {v : V α} {f : Loc → M α β} {b : β} (hc : Counted mem) (h : Alive v mem)
    (hf : f (.slot stk.length) ⟨bump v mem, stk ++ [v]⟩ = .ok b ⟨bump v mem, stk ++ [v]⟩) : withVar v f ⟨bump v mem, stk⟩ = .ok b ⟨mem, stk⟩ :=
  withVar_run (s := ⟨bump v mem, stk⟩) hf rfl (detach_bump hc h)

theorem with_diverge {s : State α} {v : V α} {f : Loc → M α β} (hf : f (.slot s.stk.length) ⟨s.mem, s.stk ++ [v]⟩ = .diverge) :
    withVar v f s = .diverge := by
  unfold withVar
  simp only [hf]

theorem bind_diverge {m : M α β} {f : β → M α γ} {s : State α} (h : m s = .diverge) : (m >>= f) s = .diverge := by
  simp only [bind_run, M.bind, h]

theorem index_bump [Env α] {mem : List (Option (Obj α))} {stk : List (V α)} {p : Nat} {v : V α} {a : Addr} {k : Kind} {n : Nat} {cells : List (Cell α)}
    (hp : stk[p]? = some v) (hd : Deno mem v (.arr a)) (h : Is mem a k n cells) {i : Nat} (hi : i < n) :
    index (.slot p) i ⟨mem, stk⟩ = .ok (.ref a i) ⟨bump (.arr a) mem, stk⟩ := by
  have hl : Alive (.arr a) mem := fun b hb => by cases hb; exact h.live
  have plain : ∀ l : Loc, readLoc l ⟨mem, stk⟩ = .ok (.arr a) ⟨mem, stk⟩ → indexPlain l i ⟨mem, stk⟩ = .ok (.ref a i) ⟨bump (.arr a) mem, stk⟩ := by
    intro l hr
    have e1 : array l ⟨mem, stk⟩ = .ok () ⟨mem, stk⟩ := by
      unfold array dereference
      simp only [bind_run, M.bind, hr, pure_run]
    have e2 : reference (.arr a) i ⟨mem, stk⟩ = .ok (.ref a i) ⟨bump (.arr a) mem, stk⟩ := by
      unfold reference
      rw [bind_eq (typeV_arr a _)]
      simp only
      rw [if_neg (by omega), bind_eq (attach_bump hl)]
      simp only [pure_run]
      rw [if_neg (by omega)]
      rfl
    unfold indexPlain
    rw [if_neg (by omega), bind_eq hr, bind_eq (sizeV_deno (.self (by simp [V.IsRef])) h), if_neg (by omega)]
    simp only [bind_run, M.bind, pure_run, e1, hr, e2]
  have hs : readLoc (.slot p) ⟨mem, stk⟩ = .ok v ⟨mem, stk⟩ := by simp [readLoc, hp]
  unfold index
  rw [bind_eq hs]
  cases hd with
  | self _ => exact plain _ hs
  | @var b j k' n' cells' c _ h1 h2 h3 h4 h5 =>
    simp only
    have hr : readLoc (.cell b j) ⟨mem, stk⟩ = .ok (.arr a) ⟨mem, stk⟩ := read_place (q := false) (s := ⟨mem, stk⟩) h1 h3 h4
    rw [if_neg (by omega), bind_eq (derefLoc_var (s := ⟨mem, stk⟩) h1 h2)]
    simp only
    rw [bind_eq hr]
    exact plain _ hr

theorem at_bump [Env α] {mem : List (Option (Obj α))} {stk : List (V α)} {v : V α} {a : Addr} (hc : Counted mem) (hv : Alive v mem)
    (ha : Live mem a) (hd : Deno mem v (.arr a)) (i : Nat) : at' v i ⟨mem, stk⟩ = .ok (.ref a i) ⟨bump (.arr a) mem, stk⟩ := by
  have hl : Alive (.arr a : V α) mem := fun b hb => by cases hb; exact ha
  have e2 : ∀ stk', reference (.arr a) i ⟨bump (.arr a) mem, stk'⟩ = .ok (.ref a i) ⟨bump (.arr a) (bump (.arr a) mem), stk'⟩ := by
    intro stk'
    unfold reference
    rw [bind_eq (typeV_arr a _)]
    simp only
    rw [if_neg (by omega), bind_eq (attach_bump (bump_alive _ hl))]
    simp only [pure_run]
    rw [if_neg (by omega)]
    rfl
  have hrd : ∀ (m : List (Option (Obj α))) (x : V α), readLoc (.slot stk.length) ⟨m, stk ++ [x]⟩ = .ok x ⟨m, stk ++ [x]⟩ := by
    intro m x
    simp [readLoc]
  have key : dereference (.slot stk.length) ⟨bump v mem, stk ++ [v]⟩ = .ok (.slot stk.length) ⟨bump (.arr a) mem, stk ++ [.arr a]⟩ ∨
      ∃ r, dereference (.slot stk.length) ⟨bump v mem, stk ++ [v]⟩ = .ok r ⟨bump (.arr a) mem, stk ++ [.arr a]⟩ := by
    cases hd with
    | self _ =>
      left
      unfold dereference
      rw [bind_eq (hrd _ _)]
      rfl
    | @var b j k' n' cells' c _ h1 h2 h3 h4 h5 =>
      right
      have hb : Alive (.arr b : V α) mem := fun b hb => by cases hb; exact h1.live
      have h1' : Is (bump (.ref b j) mem) b k' n' cells' := bump_is _ h1
      refine ⟨.cell b j, ?_⟩
      unfold dereference
      rw [bind_eq (hrd _ _)]
      simp only
      rw [bind_eq (derefLoc_var (s := ⟨bump (.ref b j) mem, _⟩) h1' h2)]
      simp only
      rw [if_neg (by simp)]
      have w1 : writeLoc (.slot stk.length) (.arr b) ⟨bump (.ref b j) mem, stk ++ [.ref b j]⟩ = .ok () ⟨bump (.ref b j) mem, stk ++ [.arr b]⟩ := by
        simp [writeLoc]
      rw [bind_eq w1]
      have hr : ∀ st : List (V α), readLoc (.cell b j) ⟨bump (.ref b j) mem, st⟩ = .ok (.arr a) ⟨bump (.ref b j) mem, st⟩ :=
        fun st => read_place (q := false) (s := ⟨bump (.ref b j) mem, st⟩) h1' h3 h4
      rw [bind_eq (hr _)]
      simp only
      rw [bind_eq (attach_bump (bump_alive _ hl))]
      have e3 : share (.slot stk.length) (.arr a) ⟨bump (.arr a) (bump (.ref b j) mem), stk ++ [.arr b]⟩ =
          .ok () ⟨bump (.arr a) (bump (.arr a) mem), stk ++ [.arr a]⟩ := by
        unfold share
        rw [bind_eq (hrd _ _), bind_eq (attach_bump (bump_alive _ (bump_alive _ hl)))]
        have w2 : writeLoc (.slot stk.length) (.arr a) ⟨bump (.arr a) (bump (.arr a) (bump (.ref b j) mem)), stk ++ [.arr b]⟩ =
            .ok () ⟨bump (.arr a) (bump (.arr a) (bump (.ref b j) mem)), stk ++ [.arr a]⟩ := by
          simp [writeLoc]
        rw [bind_eq w2]
        simp only
        have : bump (.arr a) (bump (.arr a) (bump (.ref b j) mem)) = bump (.arr b) (bump (.arr a) (bump (.arr a) mem)) := by
          rw [show bump (.ref b j) mem = bump (.arr b) mem from rfl, bump_comm (.arr a) (.arr b) mem, bump_comm (.arr a) (.arr b)]
        rw [this]
        exact detach_bump (bump_counted _ (bump_counted _ hc)) (bump_alive _ (bump_alive _ hb))
      rw [bind_eq e3, bind_eq (detach_bump (bump_counted _ hc) (bump_alive _ hl))]
      rfl
  have key : ∃ r, dereference (.slot stk.length) ⟨bump v mem, stk ++ [v]⟩ = .ok r ⟨bump (.arr a) mem, stk ++ [.arr a]⟩ := key.elim (fun h => ⟨_, h⟩) id
  obtain ⟨r, key⟩ := key
  unfold at'
  rw [bind_eq (attach_bump hv)]
  refine withVar_run (s := ⟨bump v mem, stk⟩) (w := .arr a) (mem1 := bump (.arr a) (bump (.arr a) mem)) ?_ rfl (detach_bump (bump_counted _ hc) (bump_alive _ hl))
  refine (bind_eq key).trans ?_
  rw [bind_eq (hrd _ _)]
  exact e2 _

theorem keyAt_bump {mem : List (Option (Obj α))} {stk : List (V α)} {v u w : V α} {a : Addr} {n : Nat} {cells : List (Cell α)} (hd : Deno mem v (.arr a))
    (h : Is mem a .pair n cells) {i : Nat} (hi : i < n) (hu : cells[i]? = some (.pair u w)) (hl : Alive u mem) :
    keyAt v i ⟨mem, stk⟩ = .ok u ⟨bump u mem, stk⟩ := by
  have hr : readLoc (.key a i) ⟨mem, stk⟩ = .ok u ⟨mem, stk⟩ := read_place (q := true) (s := ⟨mem, stk⟩) h hu rfl
  obtain ⟨rc, h⟩ := h
  unfold keyAt
  rw [bind_eq (atypeV_deno (s := ⟨mem, stk⟩) hd h)]
  simp only [ne_eq, not_true_eq_false, if_false]
  rw [bind_eq (heapOf_deno (s := ⟨mem, stk⟩) hd)]
  simp only
  rw [bind_eq (obj_eq (s := ⟨mem, stk⟩) h)]
  simp only [hi, if_true]
  rw [bind_eq hr]
  exact copy_bump hl

theorem putVar_bump {mem : List (Option (Obj α))} {stk : List (V α)} {v : V α} {f : Loc → M α Bytes} {t : Bytes} (hc : Counted mem) (h : Alive v mem)
    (hf : f (.slot (stk.length + 1)) ⟨bump v (bump v mem), stk ++ [v] ++ [v]⟩ = .ok t ⟨bump v (bump v mem), stk ++ [v] ++ [v]⟩) :
    putVar f v ⟨bump v mem, stk⟩ = .ok t ⟨mem, stk⟩ := by
  unfold putVar
  refine with_bump hc h ?_
  have hr : readLoc (.slot stk.length) ⟨bump v mem, stk ++ [v]⟩ = .ok v ⟨bump v mem, stk ++ [v]⟩ := by simp [readLoc]
  rw [bind_eq hr, bind_eq (copy_bump (bump_alive _ h))]
  refine with_bump (bump_counted _ hc) (bump_alive _ h) ?_
  simpa using hf

theorem putVar_diverge {mem : List (Option (Obj α))} {stk : List (V α)} {v : V α} {f : Loc → M α Bytes} (h : Alive v mem)
    (hf : f (.slot (stk.length + 1)) ⟨bump v (bump v mem), stk ++ [v] ++ [v]⟩ = .diverge) : putVar f v ⟨bump v mem, stk⟩ = .diverge := by
  unfold putVar
  refine with_diverge ?_
  have hr : readLoc (.slot stk.length) ⟨bump v mem, stk ++ [v]⟩ = .ok v ⟨bump v mem, stk ++ [v]⟩ := by simp [readLoc]
  refine (bind_eq hr).trans ?_
  rw [bind_eq (copy_bump (bump_alive _ h))]
  refine with_diverge ?_
  simpa using hf

theorem putLoop_run {f : Nat → M α Bytes} {t : Nat → Bytes} {s : State α} : ∀ {n i : Nat}, (∀ j, i ≤ j → j < i + n → f j s = .ok (t j) s) →
    putLoop f i n s = .ok ((List.range' i n).flatMap t) s := by
  intro n
  induction n with
  | zero =>
    intro i _
    rfl
  | succ n ih =>
    intro i h
    unfold putLoop
    rw [bind_eq (h i (by omega) (by omega)), bind_eq (ih (i := i + 1) fun j h1 h2 => h j (by omega) (by omega))]
    rfl

theorem putLoop_diverge {f : Nat → M α Bytes} {s : State α} : ∀ {n i : Nat}, (∀ j, i ≤ j → j < i + n → (∃ t, f j s = .ok t s) ∨ f j s = .diverge) →
    (∃ j, i ≤ j ∧ j < i + n ∧ f j s = .diverge) → putLoop f i n s = .diverge := by
  intro n
  induction n with
  | zero =>
    rintro i _ ⟨j, h1, h2, -⟩
    omega
  | succ n ih =>
    rintro i h ⟨j, h1, h2, h3⟩
    unfold putLoop
    rcases h i (by omega) (by omega) with ⟨t, e⟩ | e
    · rw [bind_eq e]
      refine bind_diverge (ih (fun j h1 h2 => h j (by omega) (by omega)) ⟨j, ?_, by omega, h3⟩)
      by_contra hj
      obtain rfl : j = i := by omega
      rw [e] at h3
      cases h3
    · exact bind_diverge e

theorem putChars_run [Env α] [DecidableEq α] (p : Printer α) {s : State α} {a : Addr} {o : Obj α} (h : s.mem[a]? = some (some o)) :
    ∀ (xs : List α) (i n : Nat), xs.length < n → (∀ x ∈ xs, x ≠ Env.nul) →
      (∀ (j : Nat) (x : α), (xs ++ [Env.nul])[j]? = some x → o.cells[i + j]? = some (.raw (some x))) →
      putChars p a i n s = .ok (xs.flatMap (p.num .char)) s := by
  intro xs
  induction xs with
  | nil =>
    intro i n hn _ hx
    obtain ⟨n, rfl⟩ : ∃ m, n = m + 1 := ⟨n - 1, by simp at hn; omega⟩
    unfold putChars
    have : o.cells[i]? = some (.raw (some Env.nul)) := hx 0 Env.nul (by simp)
    rw [bind_eq (rawAt_run h this)]
    simp only [if_true]
    rfl
  | cons y ys ih =>
    intro i n hn hz hx
    obtain ⟨n, rfl⟩ : ∃ m, n = m + 1 := ⟨n - 1, by simp at hn; omega⟩
    unfold putChars
    have : o.cells[i]? = some (.raw (some y)) := hx 0 y (by simp)
    rw [bind_eq (rawAt_run h this), if_neg (hz y (by simp))]
    rw [bind_eq (ih (i + 1) n (by simp at hn; omega) (fun x hx => hz x (by simp [hx])) (fun j x hj => by
      have := hx (j + 1) x (by simpa using hj)
      rw [show i + 1 + j = i + (j + 1) by omega]
      exact this))]
    rfl

/-! ## Texts -/

theorem le_foldr_max {l : List Nat} {x : Nat} (h : x ∈ l) : x ≤ l.foldr max 0 := by
  induction l with
  | nil => cases h
  | cons y l ih =>
    simp only [List.foldr_cons]
    rcases List.mem_cons.1 h with rfl | h
    · omega
    · have := ih h
      omega

theorem foldr_max_le {l : List Nat} {n : Nat} (h : ∀ x ∈ l, x ≤ n) : l.foldr max 0 ≤ n := by
  induction l with
  | nil => simp
  | cons y l ih =>
    simp only [List.foldr_cons]
    have := h y (by simp)
    have := ih fun x hx => h x (by simp [hx])
    omega

theorem depth_list_le {ds : List (Data α)} {n : Nat} : (Data.list ds).depth ≤ n + 1 ↔ ∀ d ∈ ds, d.depth ≤ n := by
  rw [Data.depth]
  constructor
  · intro h d hd
    have := le_foldr_max (l := ds.attach.map fun d => d.1.depth) (x := d.depth) (List.mem_map.2 ⟨⟨d, hd⟩, List.mem_attach _ _, rfl⟩)
    omega
  · intro h
    have := foldr_max_le (l := ds.attach.map fun d => d.1.depth) (n := n) fun x hx => by
      obtain ⟨d, -, rfl⟩ := List.mem_map.1 hx
      exact h d.1 d.2
    omega

theorem depth_map_le {ds : List (Data α × Data α)} {n : Nat} : (Data.map ds).depth ≤ n + 1 ↔ ∀ d ∈ ds, d.1.depth ≤ n ∧ d.2.depth ≤ n := by
  rw [Data.depth]
  constructor
  · intro h d hd
    have := le_foldr_max (l := ds.attach.map fun d => max d.1.1.depth d.1.2.depth) (x := max d.1.depth d.2.depth)
      (List.mem_map.2 ⟨⟨d, hd⟩, List.mem_attach _ _, rfl⟩)
    omega
  · intro h
    have := foldr_max_le (l := ds.attach.map fun d => max d.1.1.depth d.1.2.depth) (n := n) fun x hx => by
      obtain ⟨d, -, rfl⟩ := List.mem_map.1 hx
      have := h d.1 d.2
      omega
    omega

theorem data_depth_pos (d : Data α) : 0 < d.depth := by
  cases d with
  | nums k xs => cases xs <;> simp [Data.depth]
  | _ => simp [Data.depth]

/-- The text of an element. -/
def textAt (f : β → Bytes) (l : List β) (i : Nat) : Bytes :=
  match l[i]? with
  | some x => f x
  | none => []

theorem map_range (f : β → Bytes) (l : List β) : l.map f = (List.range' 0 l.length).map (textAt f l) := by
  apply List.ext_getElem?
  intro i
  simp only [List.getElem?_map]
  by_cases h : i < l.length
  · rw [List.getElem?_range' h]
    simp [h, textAt]
  · rw [List.getElem?_eq_none (by omega), List.getElem?_eq_none (by simp; omega)]
    rfl

theorem lines_joined (ind : Nat) (t : Nat → Bytes) : ∀ (m i n : Nat), n = i + m →
    10 :: (List.range' i m).flatMap (fun j => List.replicate ind 32 ++ t j ++ comma j n ++ [10]) =
      joined [44] ((List.range' i m).map fun j => line ind ++ t j) ++ [10] := by
  intro m
  induction m with
  | zero =>
    intro i n _
    rfl
  | succ m ih =>
    intro i n hn
    cases m with
    | zero => simp [List.range', comma, joined, line, hn]
    | succ m =>
      have := ih (i + 1) n (by omega)
      rw [List.range', List.flatMap_cons, List.map_cons]
      have hj : joined [44] ((line ind ++ t i) :: (List.range' (i + 1) (m + 1)).map fun j => line ind ++ t j) =
          line ind ++ t i ++ [44] ++ joined [44] ((List.range' (i + 1) (m + 1)).map fun j => line ind ++ t j) := by
        rw [List.range', List.map_cons, joined]
      rw [hj, List.append_assoc (line ind ++ t i ++ [44]) _ [10], ← this]
      simp [comma, show i + 1 < n by omega, line]

theorem lines_block (ind n : Nat) (t : Nat → Bytes) :
    [91, 10] ++ (List.range' 0 n).flatMap (fun j => List.replicate (ind + 2) 32 ++ t j ++ comma j n ++ [10]) ++ List.replicate ind 32 ++ [93] =
      block ind ((List.range' 0 n).map t) := by
  have := lines_joined (ind + 2) t n 0 n (by omega)
  unfold block
  rw [List.map_map]
  have h2 : ((fun u => line (ind + 2) ++ u) ∘ t) = fun j => line (ind + 2) ++ t j := rfl
  rw [h2, show ([91, 10] : Bytes) = [91] ++ [10] from rfl, line, List.append_assoc [91] [10]]
  rw [show ([10] : Bytes) ++ (List.range' 0 n).flatMap (fun j => List.replicate (ind + 2) 32 ++ t j ++ comma j n ++ [10]) =
    10 :: (List.range' 0 n).flatMap (fun j => List.replicate (ind + 2) 32 ++ t j ++ comma j n ++ [10]) from rfl, this]
  simp [line]

theorem members_joined (t : Nat → Bytes) : ∀ (m i n : Nat), n = i + m →
    (List.range' i m).flatMap (fun j => t j ++ comma j n) = joined [44] ((List.range' i m).map t) := by
  intro m
  induction m with
  | zero =>
    intro i n _
    rfl
  | succ m ih =>
    intro i n hn
    cases m with
    | zero => simp [List.range', comma, joined, hn]
    | succ m =>
      have := ih (i + 1) n (by omega)
      rw [List.range', List.flatMap_cons, List.map_cons, this]
      conv_rhs => rw [List.range', List.map_cons, joined]
      rw [List.range', List.map_cons]
      simp [comma, show i + 1 < n by omega]

theorem dense_joined (t : Nat → Bytes) : ∀ (m i : Nat),
    (List.range' i m).flatMap (fun j => (if j = 0 then [] else [44, 32]) ++ t j) =
      (if i = 0 ∨ m = 0 then [] else [44, 32]) ++ joined [44, 32] ((List.range' i m).map t) := by
  intro m
  induction m with
  | zero =>
    intro i
    simp [joined]
  | succ m ih =>
    intro i
    rw [List.range', List.flatMap_cons, List.map_cons, ih]
    cases m with
    | zero => simp [List.range', joined]
    | succ m =>
      conv_rhs => rw [List.range', List.map_cons, joined]
      rw [List.range', List.map_cons]
      by_cases hi : i = 0 <;> simp [hi]

/-! ## Printing -/

theorem _root_.Libube.MemSpec.IsData.alive [Env α] {mem : List (Option (Obj α))} {v : V α} {d : Data α} (h : IsData mem v d) : Alive v mem := by
  intro a ha
  cases h with
  | nil => cases ha
  | num _ => cases ha
  | str h | nums h | cplx h | list h | map h => cases ha; exact ⟨_, h⟩

theorem _root_.Libube.MemSpec.IsData.plain [Env α] {mem : List (Option (Obj α))} {v : V α} {d : Data α} (h : IsData mem v d) : ¬ v.IsRef := by
  cases h <;> simp [V.IsRef]

theorem typeV_deno_arr {s : State α} {v : V α} {a : Addr} (h : Deno s.mem v (.arr a)) : typeV v s = .ok none s := by
  obtain ⟨u, h1, h2⟩ := derefV_tot h
  rcases h2 with rfl | ⟨b, j, k, n, cells, x, -, -, -, h⟩
  · unfold typeV
    rw [bind_eq h1]
    rfl
  · cases h

theorem deno_nil {s : State α} {v : V α} (h : Deno s.mem v .nil) : typeV v s = .ok none s ∧ heapOf v s = .ok none s := by
  obtain ⟨u, h1, h2⟩ := derefV_tot h
  rcases h2 with rfl | ⟨b, j, k, n, cells, x, -, -, -, h⟩
  · unfold typeV heapOf
    rw [bind_eq h1, bind_eq h1]
    exact ⟨rfl, rfl⟩
  · cases h

theorem deno_num {s : State α} {v : V α} {k : Kind} {x : α} (hd : Deno s.mem v (.num k x)) (hk : k ≠ .cdouble) :
    typeV v s = .ok (some k) s ∧ getV k v s = .ok x s := by
  refine ⟨?_, (number_get hd hk).2⟩
  obtain ⟨u, h1, h2⟩ := derefV_tot hd
  unfold typeV
  rw [bind_eq h1]
  rcases h2 with rfl | ⟨b, j, k, n, cells, x, rfl, h3, -, h⟩
  · rfl
  · cases h
    obtain ⟨rc, h3⟩ := h3
    simp only
    rw [bind_eq (obj_eq h3)]
    rfl

theorem charPtr_deno {s : State α} {v : V α} {a : Addr} (h : Deno s.mem v (.arr a)) : charPtr v s = .ok (some (a, 0)) s := by
  obtain ⟨u, h1, h2⟩ := derefV_tot h
  rcases h2 with rfl | ⟨b, j, k, n, cells, x, -, -, -, h⟩
  · unfold charPtr
    rw [bind_eq h1]
    rfl
  · cases h

/-- Printing an array is printing a copy of the var that denotes it. -/
theorem format_array [Env α] [DecidableEq α] (p : Printer α) {mem : List (Option (Obj α))} {stk : List (V α)} {q : Nat} {v : V α} {a : Addr}
    (hq : stk[q]? = some v) (hd : Deno mem v (.arr a)) (hv : Alive v mem) (n ind : Nat) :
    format p (n + 1) ind (.slot q) ⟨mem, stk⟩ = withVar v (formatArray p (format p n) ind) ⟨bump v mem, stk⟩ := by
  have hr : readLoc (.slot q) ⟨mem, stk⟩ = .ok v ⟨mem, stk⟩ := by simp [readLoc, hq]
  rw [format, bind_eq hr, bind_eq (typeV_deno_arr (s := ⟨mem, stk⟩) hd)]
  simp only
  rw [bind_eq (heapOf_deno (s := ⟨mem, stk⟩) hd)]
  simp only
  rw [bind_eq (copy_bump hv)]

end Libube.Mem

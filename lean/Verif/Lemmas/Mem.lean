import Verif.Model.Mem
import Mathlib.Tactic.Ring
import Mathlib.Data.List.Perm.Basic

/-! # Counting references -/

namespace Libube.Mem

variable {α β γ : Type}

/-- The reference count of an array, 0 if there is none. -/
def rcOf (mem : List (Option (Obj α))) (a : Addr) : Nat :=
  match mem[a]? with
  | some (some o) => o.rc
  | _ => 0

/-- The pointers held by one entry of the store. -/
def entryPtrs : Option (Obj α) → List Addr
  | some o => o.ptrs
  | none => []

/-- The pointers held by elements of arrays. -/
def cellPtrs (mem : List (Option (Obj α))) : List Addr := mem.flatMap entryPtrs

/-- The pointers held by variables and temporaries. -/
def stkPtrs (stk : List (V α)) : List Addr := stk.flatMap fun v => v.ptr.toList

/-- A place fits the element type. -/
def CellOk (k : Kind) : Cell α → Prop
  | .raw _ => k ≠ .var ∧ k ≠ .pair
  | .var _ => k = .var
  | .pair _ _ => k = .pair

/-- All places fit the element type. -/
def Obj.Typed (o : Obj α) : Prop := ∀ c ∈ o.cells, CellOk o.kind c

/-- Every count is the number of pointers in variables, elements and `own`; arrays with count 0 are
    gone. -/
structure InvM (mem : List (Option (Obj α))) (own : List Addr) : Prop where
  exact : ∀ a, rcOf mem a = (cellPtrs mem).count a + own.count a
  live : ∀ (a : Addr) (o : Obj α), mem[a]? = some (some o) → 0 < o.rc
  typed : ∀ (a : Addr) (o : Obj α), mem[a]? = some (some o) → o.Typed

/-- The same for a state: variables own what they point to. -/
def Inv (s : State α) (own : List Addr) : Prop := InvM s.mem (stkPtrs s.stk ++ own)

theorem InvM.congr {mem : List (Option (Obj α))} {l l' : List Addr} (h : InvM mem l)
    (hl : ∀ a, l.count a = l'.count a) : InvM mem l' :=
  ⟨fun a => by rw [h.exact a, hl a], h.live, h.typed⟩

theorem Inv.congr {s : State α} {l l' : List Addr} (h : Inv s l)
    (hl : ∀ a, l.count a = l'.count a) : Inv s l' :=
  InvM.congr h fun a => by simp [List.count_append, hl a]

theorem cellPtrs_set {mem : List (Option (Obj α))} {a : Addr} {x : Option (Obj α)}
    (h : mem[a]? = some x) (y : Option (Obj α)) (b : Addr) :
    (cellPtrs (mem.set a y)).count b + (entryPtrs x).count b =
      (cellPtrs mem).count b + (entryPtrs y).count b := by
  induction mem generalizing a with
  | nil => simp at h
  | cons m mem ih =>
    cases a with
    | zero =>
      simp at h
      subst h
      simp [cellPtrs, List.count_append]
      omega
    | succ a =>
      simp at h
      have := ih h
      simp [cellPtrs, List.count_append] at this ⊢
      omega

theorem stkPtrs_set {stk : List (V α)} {n : Nat} {x : V α} (h : stk[n]? = some x) (y : V α)
    (b : Addr) :
    (stkPtrs (stk.set n y)).count b + x.ptr.toList.count b =
      (stkPtrs stk).count b + y.ptr.toList.count b := by
  induction stk generalizing n with
  | nil => simp at h
  | cons m stk ih =>
    cases n with
    | zero =>
      simp at h
      subst h
      simp [stkPtrs, List.count_append]
      omega
    | succ n =>
      simp at h
      have := ih h
      simp [stkPtrs, List.count_append] at this ⊢
      omega

theorem cells_set {cells : List (Cell α)} {i : Nat} {x : Cell α} (h : cells[i]? = some x) (y : Cell α)
    (b : Addr) :
    ((cells.set i y).flatMap Cell.ptrs).count b + x.ptrs.count b =
      (cells.flatMap Cell.ptrs).count b + y.ptrs.count b := by
  induction cells generalizing i with
  | nil => simp at h
  | cons m cells ih =>
    cases i with
    | zero =>
      simp at h
      subst h
      simp [List.count_append]
      omega
    | succ i =>
      simp at h
      have := ih h
      simp [List.count_append] at this ⊢
      omega

theorem rcOf_set {mem : List (Option (Obj α))} {a : Addr} {x : Option (Obj α)}
    (h : mem[a]? = some x) (y : Option (Obj α)) (b : Addr) :
    rcOf (mem.set a y) b = if a = b then (match y with | some o => o.rc | none => 0) else rcOf mem b := by
  have hl : a < mem.length := (List.getElem?_eq_some_iff.1 h).1
  unfold rcOf
  rw [List.getElem?_set]
  by_cases hab : a = b
  · subst hab
    simp [hl]
    cases y <;> rfl
  · simp [hab]

theorem InvM.alive {mem : List (Option (Obj α))} {own : List Addr} (h : InvM mem own) {a : Addr}
    (ha : a ∈ cellPtrs mem ∨ a ∈ own) : ∃ o, mem[a]? = some (some o) ∧ 0 < o.rc := by
  have h1 := h.exact a
  have h2 : 0 < rcOf mem a := by
    rw [h1]
    rcases ha with ha | ha
    · have := List.count_pos_iff.2 ha
      omega
    · have := List.count_pos_iff.2 ha
      omega
  unfold rcOf at h2
  split at h2
  · next o ho => exact ⟨o, ho, h2⟩
  · omega

/-- Changing an array: the pointers it drops and takes are accounted for. -/
theorem InvM.update {mem : List (Option (Obj α))} {own own' : List Addr} {a : Addr} {o o' : Obj α}
    (h : InvM mem own) (ha : mem[a]? = some (some o)) (hp : 0 < o'.rc)
    (ht : o'.Typed)
    (hrc : ∀ b, (if a = b then o'.rc else 0) + o.ptrs.count b + own.count b =
      (if a = b then o.rc else 0) + o'.ptrs.count b + own'.count b) :
    InvM (mem.set a (some o')) own' := by
  have hl : a < mem.length := (List.getElem?_eq_some_iff.1 ha).1
  constructor
  · intro b
    have h1 := h.exact b
    have h2 := cellPtrs_set ha (some o') b
    have h3 := hrc b
    rw [rcOf_set ha]
    simp only [entryPtrs] at h2
    by_cases hab : a = b
    · subst hab
      have : rcOf mem a = o.rc := by simp [rcOf, ha]
      simp at h3 ⊢
      omega
    · simp [hab] at h3 ⊢
      omega
  · intro b p hb
    rw [List.getElem?_set] at hb
    by_cases hab : a = b
    · subst hab
      simp [hl] at hb
      subst hb
      exact hp
    · simp [hab] at hb
      exact h.live b p hb
  · intro b p hb
    rw [List.getElem?_set] at hb
    by_cases hab : a = b
    · subst hab
      simp [hl] at hb
      subst hb
      exact ht
    · simp [hab] at hb
      exact h.typed b p hb

/-- Dropping an array whose last owner is given up. -/
theorem InvM.drop {mem : List (Option (Obj α))} {own : List Addr} {a : Addr} {o : Obj α}
    (h : InvM mem (a :: own)) (ha : mem[a]? = some (some o)) (hp : o.rc = 1) :
    InvM (mem.set a none) (o.ptrs ++ own) := by
  have hl : a < mem.length := (List.getElem?_eq_some_iff.1 ha).1
  constructor
  · intro b
    have h1 := h.exact b
    have h2 := cellPtrs_set ha none b
    rw [rcOf_set ha]
    simp only [entryPtrs, List.count_nil] at h2
    rw [List.count_append]
    by_cases hab : a = b
    · subst hab
      have : rcOf mem a = o.rc := by simp [rcOf, ha]
      simp at h1 ⊢
      omega
    · have hba : ¬ (a == b) = true := by simpa using hab
      simp [hab, List.count_cons] at h1 ⊢
      omega
  · intro b p hb
    rw [List.getElem?_set] at hb
    by_cases hab : a = b
    · subst hab
      simp [hl] at hb
    · simp [hab] at hb
      exact h.live b p hb
  · intro b p hb
    rw [List.getElem?_set] at hb
    by_cases hab : a = b
    · subst hab
      simp [hl] at hb
    · simp [hab] at hb
      exact h.typed b p hb

/-- A new array with count 1, owned. -/
theorem InvM.new {mem : List (Option (Obj α))} {own : List Addr} {o : Obj α} (h : InvM mem (o.ptrs ++ own))
    (hp : o.rc = 1) (ht : o.Typed) : InvM (mem ++ [some o]) (mem.length :: own) := by
  constructor
  · intro b
    have h1 := h.exact b
    have h2 : (cellPtrs (mem ++ [some o])).count b = (cellPtrs mem).count b + o.ptrs.count b := by
      simp [cellPtrs, entryPtrs, List.count_append]
    rw [List.count_append] at h1
    rw [h2]
    by_cases hb : b < mem.length
    · have : rcOf (mem ++ [some o]) b = rcOf mem b := by
        simp [rcOf, List.getElem?_append_left hb]
      rw [this, List.count_cons]
      have : ¬ (mem.length == b) = true := by simp; omega
      rw [if_neg this]
      omega
    · have h0 : rcOf mem b = 0 := by
        simp [rcOf, List.getElem?_eq_none (Nat.le_of_not_lt hb)]
      by_cases hbe : b = mem.length
      · subst hbe
        have : rcOf (mem ++ [some o]) mem.length = 1 := by simp [rcOf, hp]
        rw [this, List.count_cons]
        simp
        omega
      · have : rcOf (mem ++ [some o]) b = 0 := by
          unfold rcOf
          rw [List.getElem?_eq_none (by simp; omega)]
        rw [this, List.count_cons]
        have : ¬ (mem.length == b) = true := by simp; omega
        rw [if_neg this]
        omega
  · intro b p hb
    by_cases hlt : b < mem.length
    · rw [List.getElem?_append_left hlt] at hb
      exact h.live b p hb
    · rw [List.getElem?_append_right (by omega)] at hb
      have : b - mem.length = 0 := by
        by_contra hne
        rw [List.getElem?_eq_none (by simp; omega)] at hb
        simp at hb
      rw [this] at hb
      simp at hb
      subst hb
      omega
  · intro b p hb
    by_cases hlt : b < mem.length
    · rw [List.getElem?_append_left hlt] at hb
      exact h.typed b p hb
    · rw [List.getElem?_append_right (by omega)] at hb
      have : b - mem.length = 0 := by
        by_contra hne
        rw [List.getElem?_eq_none (by simp; omega)] at hb
        simp at hb
      rw [this] at hb
      simp at hb
      subst hb
      exact ht

theorem bind_run (m : M α β) (f : β → M α γ) (s : State α) : (m >>= f) s = M.bind m f s := rfl
theorem pure_run (b : β) (s : State α) : (pure b : M α β) s = .ok b s := rfl

/-! ## Releasing -/

theorem weight_eq (mem : List (Option (Obj α))) : weight mem = (cellPtrs mem).length := by
  induction mem with
  | nil => rfl
  | cons m mem ih =>
    simp only [weight, cellPtrs, List.map_cons, List.sum_cons, List.flatMap_cons, List.length_append] at ih ⊢
    rw [ih]
    cases m <;> simp [entryPtrs]

/-- What release may do to the store: arrays disappear or lose counts. -/
def Shrunk (mem mem' : List (Option (Obj α))) : Prop :=
  mem'.length = mem.length ∧ ∀ (a : Addr) (o' : Obj α), mem'[a]? = some (some o') →
    ∃ o : Obj α, mem[a]? = some (some o) ∧ o' = { o with rc := o'.rc } ∧ o'.rc ≤ o.rc

theorem Shrunk.refl (mem : List (Option (Obj α))) : Shrunk mem mem :=
  ⟨rfl, fun _ o h => ⟨o, h, rfl, le_refl _⟩⟩

theorem Shrunk.trans {m1 m2 m3 : List (Option (Obj α))} (h1 : Shrunk m1 m2) (h2 : Shrunk m2 m3) :
    Shrunk m1 m3 := by
  refine ⟨h2.1.trans h1.1, fun a o' h => ?_⟩
  obtain ⟨o2, ho2, he2, hle2⟩ := h2.2 a o' h
  obtain ⟨o1, ho1, he1, hle1⟩ := h1.2 a o2 ho2
  refine ⟨o1, ho1, ?_, hle2.trans hle1⟩
  rw [he2, he1]

theorem cellPtrs_set_length {mem : List (Option (Obj α))} {a : Addr} {x : Option (Obj α)}
    (h : mem[a]? = some x) (y : Option (Obj α)) :
    (cellPtrs (mem.set a y)).length + (entryPtrs x).length =
      (cellPtrs mem).length + (entryPtrs y).length := by
  induction mem generalizing a with
  | nil => simp at h
  | cons m mem ih =>
    cases a with
    | zero =>
      simp at h
      subst h
      simp [cellPtrs]
      omega
    | succ a =>
      simp at h
      have := ih h
      simp [cellPtrs] at this ⊢
      omega

/-- Releasing pointers that are owned always succeeds. -/
theorem release_ok (n : Nat) (pend own : List Addr) (mem : List (Option (Obj α)))
    (h : InvM mem (pend ++ own)) (hn : pend.length + (cellPtrs mem).length ≤ n) :
    ∃ mem', release n pend mem = .ok mem' ∧ InvM mem' own ∧ Shrunk mem mem' := by
  induction n generalizing pend mem with
  | zero =>
    have : pend = [] := by
      cases pend with
      | nil => rfl
      | cons a l => simp at hn
    subst this
    exact ⟨mem, by simp [release], by simpa using h, Shrunk.refl mem⟩
  | succ n ih =>
    cases pend with
    | nil => exact ⟨mem, by simp [release], by simpa using h, Shrunk.refl mem⟩
    | cons a rest =>
      obtain ⟨o, ho, hp⟩ := h.alive (a := a) (by simp)
      have hl : a < mem.length := (List.getElem?_eq_some_iff.1 ho).1
      have hz : o.rc ≠ 0 := by omega
      by_cases h1 : o.rc = 1
      · have hinv : InvM (mem.set a none) ((o.ptrs.reverse ++ rest) ++ own) := by
          refine (InvM.drop h ho h1).congr fun b => ?_
          simp [List.count_append, List.count_reverse]
        have hlen := cellPtrs_set_length ho (none : Option (Obj α))
        obtain ⟨mem', he, hi, hs⟩ := ih (o.ptrs.reverse ++ rest) (mem.set a none) hinv (by
          simp [entryPtrs] at hlen hn ⊢
          omega)
        refine ⟨mem', ?_, hi, Shrunk.trans ?_ hs⟩
        · simp only [release, ho, h1]
          exact he
        · refine ⟨by simp, fun b o' hb => ?_⟩
          rw [List.getElem?_set] at hb
          by_cases hab : a = b
          · subst hab
            simp [hl] at hb
          · simp [hab] at hb
            exact ⟨o', hb, rfl, le_refl _⟩
      · have hinv : InvM (mem.set a (some { o with rc := o.rc - 1 })) (rest ++ own) := by
          refine InvM.update h ho (by show 0 < o.rc - 1; omega) (h.typed a o ho) fun b => ?_
          simp only [List.cons_append, List.count_cons, Obj.ptrs]
          by_cases hab : a = b
          · subst hab
            simp
            omega
          · have : ¬ (a == b) = true := by simpa using hab
            simp [hab]
        have hlen := cellPtrs_set_length ho (some { o with rc := o.rc - 1 } : Option (Obj α))
        obtain ⟨mem', he, hi, hs⟩ := ih rest _ hinv (by
          simp [entryPtrs, Obj.ptrs] at hlen hn ⊢
          omega)
        refine ⟨mem', ?_, hi, Shrunk.trans ?_ hs⟩
        · simp only [release, ho, if_neg hz, if_neg h1]
          exact he
        · refine ⟨by simp, fun b o' hb => ?_⟩
          rw [List.getElem?_set] at hb
          by_cases hab : a = b
          · subst hab
            simp [hl] at hb
            subst hb
            exact ⟨o, ho, rfl, by simp⟩
          · simp [hab] at hb
            exact ⟨o', hb, rfl, le_refl _⟩

theorem detachV_ok {s : State α} {v : V α} {own : List Addr} (h : Inv s (v.ptr.toList ++ own)) :
    ∃ mem', detachV v s = .ok () { s with mem := mem' } ∧ Inv { s with mem := mem' } own ∧
      Shrunk s.mem mem' := by
  have h' : InvM s.mem (v.ptr.toList ++ (stkPtrs s.stk ++ own)) :=
    InvM.congr h fun a => by simp only [List.count_append]; omega
  have hlen : v.ptr.toList.length ≤ 1 := by cases v.ptr <;> simp
  obtain ⟨mem', he, hi, hs⟩ := release_ok (weight s.mem + 1) v.ptr.toList _ s.mem h' (by
    rw [weight_eq]; omega)
  refine ⟨mem', ?_, hi, hs⟩
  simp only [detachV, bind_run, M.bind, getMem, liftO, he, setMem]

/-! ## Calls that keep the counts -/

/-- The exception of a var that refers to itself (lube/var.cpp:1317). -/
def selfRef : Exn := .error "var::dereference(): Unknown type"

/-- What is left after a call: the owned pointers of the result, possibly leaked ones (only if `lk` or
    after `selfRef`), and those owned elsewhere; the stack of variables is as high as before. -/
def Post (lk : Bool) (n : Nat) (own : List Addr) (post : β → List Addr) : R α β → Prop
  | .ok b s => ∃ L, (lk = false → L = []) ∧ Inv s (post b ++ (L ++ own)) ∧ s.stk.length = n
  | .thrown e s => ∃ L, (lk = false → e ≠ selfRef → L = []) ∧ Inv s (L ++ own) ∧ s.stk.length = n
  | _ => True

/-- The call takes over `pre` and gives out `post`. -/
def Keep (lk : Bool) (m : M α β) (pre : List Addr) (post : β → List Addr) : Prop :=
  ∀ s own, Inv s (pre ++ own) → Post lk s.stk.length own post (m s)

/-- The call changes nothing. -/
def RO (m : M α β) : Prop := ∀ s, match m s with
  | .ok _ s' => s' = s
  | .thrown _ s' => s' = s
  | _ => True

/-- The call throws nothing. -/
def NT (m : M α β) : Prop := ∀ s e s', m s ≠ .thrown e s'

theorem Keep.congr {lk : Bool} {m : M α β} {pre pre' : List Addr} {post : β → List Addr}
    (h : Keep lk m pre post) (hp : ∀ a, pre'.count a = pre.count a) : Keep lk m pre' post :=
  fun s own hi => h s own (hi.congr fun a => by simp [List.count_append, hp a])

theorem Keep.congr_post {lk : Bool} {m : M α β} {pre : List Addr} {post post' : β → List Addr}
    (h : Keep lk m pre post) (hp : ∀ b a, (post b).count a = (post' b).count a) : Keep lk m pre post' := by
  intro s own hi
  have := h s own hi
  revert this
  cases m s with
  | ok b s' =>
    rintro ⟨L, h1, h2, h3⟩
    exact ⟨L, h1, h2.congr fun a => by simp [List.count_append, hp b a], h3⟩
  | thrown e s' => exact id
  | _ => exact id

theorem Keep.pure {lk : Bool} (b : β) {pre : List Addr} {post : β → List Addr}
    (h : ∀ a, pre.count a = (post b).count a) : Keep lk (pure b : M α β) pre post := by
  intro s own hi
  exact ⟨[], fun _ => rfl, hi.congr fun a => by simp [List.count_append, h a], rfl⟩

theorem Keep.undef {lk : Bool} {u : UB} {pre : List Addr} {post : β → List Addr} :
    Keep lk (undef u : M α β) pre post := fun _ _ _ => trivial

theorem Keep.abort {lk : Bool} {pre : List Addr} {post : β → List Addr} :
    Keep lk (abortM : M α β) pre post := fun _ _ _ => trivial

theorem Keep.throwE {lk : Bool} {e : Exn} {post : β → List Addr} :
    Keep lk (throwE e : M α β) [] post := fun _ _ hi => ⟨[], fun _ _ => rfl, hi, rfl⟩

theorem Keep.bind {lk : Bool} {m : M α β} {f : β → M α γ} {pre : List Addr} {mid : β → List Addr}
    {post : γ → List Addr} (hm : Keep lk m pre mid) (hf : ∀ b, Keep lk (f b) (mid b) post) :
    Keep lk (m >>= f) pre post := by
  intro s own hi
  have h1 := hm s own hi
  rw [bind_run]
  unfold M.bind
  cases hms : m s with
  | ok b s' =>
    rw [hms] at h1
    obtain ⟨L, hL, hi', hlen⟩ := h1
    have h2 := hf b s' (L ++ own) hi'
    simp only
    cases hfs : f b s' with
    | ok c s'' =>
      rw [hfs] at h2
      obtain ⟨L', hL', hi'', hlen'⟩ := h2
      exact ⟨L' ++ L, fun h => by rw [hL h, hL' h]; rfl,
        by rw [List.append_assoc]; exact hi'', hlen'.trans hlen⟩
    | thrown e s'' =>
      rw [hfs] at h2
      obtain ⟨L', hL', hi'', hlen'⟩ := h2
      exact ⟨L' ++ L, fun h he => by rw [hL h, hL' h he]; rfl,
        by rw [List.append_assoc]; exact hi'', hlen'.trans hlen⟩
    | ub u => trivial
    | abort => trivial
    | diverge => trivial
  | thrown e s' => rw [hms] at h1; exact h1
  | ub u => trivial
  | abort => trivial
  | diverge => trivial

theorem RO.keep {lk : Bool} {m : M α β} (h : RO m) : Keep lk m [] (fun _ => []) := by
  intro s own hi
  have := h s
  revert this
  cases m s with
  | ok b s' => rintro rfl; exact ⟨[], fun _ => rfl, hi, rfl⟩
  | thrown e s' => rintro rfl; exact ⟨[], fun _ _ => rfl, hi, rfl⟩
  | ub u => exact fun _ => trivial
  | abort => exact fun _ => trivial
  | diverge => exact fun _ => trivial

/-- Reading first, with nothing owned. -/
theorem RO.bind_keep {lk : Bool} {m : M α β} (h : RO m) {f : β → M α γ} {post : γ → List Addr}
    (hf : ∀ b, Keep lk (f b) [] post) : Keep lk (m >>= f) [] post := h.keep.bind hf

/-- Reading first, without exceptions. -/
theorem RO.bind_keep' {lk : Bool} {m : M α β} (h : RO m) (hn : NT m) {f : β → M α γ} {pre : List Addr}
    {post : γ → List Addr} (hf : ∀ b, Keep lk (f b) pre post) : Keep lk (m >>= f) pre post := by
  intro s own hi
  rw [bind_run]
  unfold M.bind
  have h1 := h s
  cases hms : m s with
  | ok b s' =>
    rw [hms] at h1
    subst h1
    exact hf b _ own hi
  | thrown e s' => exact absurd hms (hn s e s')
  | ub u => trivial
  | abort => trivial
  | diverge => trivial

theorem Keep.withVar' {lk : Bool} {v : V α} {f : Loc → M α β} {pre : List Addr} {post : β → List Addr}
    (hf : ∀ l, Keep lk (f l) pre post) : Keep lk (withVar v f) (v.ptr.toList ++ pre) post := by
  intro s own hi
  have hi0 : Inv { s with stk := s.stk ++ [v] } (pre ++ own) := by
    refine InvM.congr hi fun a => ?_
    simp [stkPtrs, List.count_append]
  have h1 := hf (.slot s.stk.length) _ own hi0
  unfold Mem.withVar
  simp only
  have key : ∀ (s' : State α) (ow : List Addr), Inv s' ow → s'.stk.length = s.stk.length + 1 →
      ∃ w mem', s'.stk[s.stk.length]? = some w ∧
        detachV w { s' with stk := s'.stk.take s.stk.length } =
          .ok () { mem := mem', stk := s'.stk.take s.stk.length } ∧
        Inv { mem := mem', stk := s'.stk.take s.stk.length } ow := by
    intro s' ow hiw hlen
    have hlt : s.stk.length < s'.stk.length := by omega
    have hw : s'.stk[s.stk.length]? = some s'.stk[s.stk.length] := List.getElem?_eq_getElem hlt
    have hsplit : s'.stk = s'.stk.take s.stk.length ++ [s'.stk[s.stk.length]] := by
      rw [List.take_append_getElem hlt]
      rw [List.take_of_length_le (by omega)]
    have hi1 : Inv { s' with stk := s'.stk.take s.stk.length }
        (s'.stk[s.stk.length].ptr.toList ++ ow) := by
      refine InvM.congr hiw fun a => ?_
      have h9 : (stkPtrs s'.stk).count a = (stkPtrs (s'.stk.take s.stk.length)).count a +
          (s'.stk[s.stk.length].ptr.toList).count a := by
        have := congrArg (fun l => (stkPtrs l).count a) hsplit
        simp only [stkPtrs, List.flatMap_append, List.count_append, List.flatMap_cons, List.flatMap_nil,
          List.append_nil] at this ⊢
        exact this
      simp only [List.count_append]
      omega
    obtain ⟨mem', he, hi2, _⟩ := detachV_ok hi1
    exact ⟨_, mem', hw, he, hi2⟩
  cases hfs : f (.slot s.stk.length) { s with stk := s.stk ++ [v] } with
  | ok b s' =>
    rw [hfs] at h1
    obtain ⟨L, hL, hi', hlen⟩ := h1
    obtain ⟨w, mem', hw, hd, hi2⟩ := key s' _ hi' (by simpa using hlen)
    simp only [hw, hd]
    refine ⟨L, hL, hi2, ?_⟩
    have : s'.stk.length = s.stk.length + 1 := by simpa using hlen
    simp [this]
  | thrown e s' =>
    rw [hfs] at h1
    obtain ⟨L, hL, hi', hlen⟩ := h1
    obtain ⟨w, mem', hw, hd, hi2⟩ := key s' _ hi' (by simpa using hlen)
    simp only [hw, hd]
    refine ⟨L, hL, hi2, ?_⟩
    have : s'.stk.length = s.stk.length + 1 := by simpa using hlen
    simp [this]
  | ub u => trivial
  | abort => trivial
  | diverge => trivial

theorem Keep.withVar {lk : Bool} {v : V α} {f : Loc → M α β} {post : β → List Addr}
    (hf : ∀ l, Keep lk (f l) [] post) : Keep lk (withVar v f) v.ptr.toList post :=
  (Keep.withVar' hf).congr fun a => by simp

/-! ## Calls that only read -/

theorem RO.pure (b : β) : RO (pure b : M α β) := fun _ => rfl
theorem RO.undef {u : UB} : RO (undef u : M α β) := fun _ => trivial
theorem RO.throwE {e : Exn} : RO (throwE e : M α β) := fun _ => rfl
theorem NT.pure (b : β) : NT (pure b : M α β) := fun _ _ _ h => by cases h
theorem NT.undef {u : UB} : NT (undef u : M α β) := fun _ _ _ h => by cases h

theorem RO.bind {m : M α β} {f : β → M α γ} (hm : RO m) (hf : ∀ b, RO (f b)) : RO (m >>= f) := by
  intro s
  rw [bind_run]
  unfold M.bind
  have h1 := hm s
  cases hms : m s with
  | ok b s' =>
    rw [hms] at h1
    subst h1
    exact hf b _
  | thrown e s' => rw [hms] at h1; exact h1
  | _ => trivial

theorem NT.bind {m : M α β} {f : β → M α γ} (hm : NT m) (hf : ∀ b, NT (f b)) : NT (m >>= f) := by
  intro s e s'
  rw [bind_run]
  unfold M.bind
  cases hms : m s with
  | ok b s1 => exact hf b s1 e s'
  | thrown e1 s1 => exact absurd hms (hm s e1 s1)
  | ub u => exact fun h => by cases h
  | abort => exact fun h => by cases h
  | diverge => exact fun h => by cases h

theorem obj_ro (a : Addr) : RO (obj a : M α _) := by
  intro s
  unfold obj
  cases s.mem[a]? with
  | none => trivial
  | some x => cases x <;> trivial

theorem obj_nt (a : Addr) : NT (obj a : M α _) := by
  intro s e s'
  unfold obj
  split <;> simp

theorem getMem_ro : RO (getMem : M α _) := fun _ => rfl
theorem getMem_nt : NT (getMem : M α _) := fun _ _ _ h => by cases h

theorem readLoc_ro (l : Loc) : RO (readLoc l : M α _) := by
  cases l with
  | slot n =>
    intro s
    simp only [readLoc]
    cases s.stk[n]? <;> trivial
  | cell a i =>
    refine RO.bind (obj_ro a) fun o => ?_
    split <;> first | exact RO.pure _ | exact RO.undef
  | key a i =>
    refine RO.bind (obj_ro a) fun o => ?_
    split <;> first | exact RO.pure _ | exact RO.undef

theorem readLoc_nt (l : Loc) : NT (readLoc l : M α _) := by
  cases l with
  | slot n => intro s e s'; simp only [readLoc]; split <;> simp
  | cell a i =>
    refine NT.bind (obj_nt a) fun o => ?_
    split <;> first | exact NT.pure _ | exact NT.undef
  | key a i =>
    refine NT.bind (obj_nt a) fun o => ?_
    split <;> first | exact NT.pure _ | exact NT.undef

theorem derefLoc_ro (a : Addr) (i : Nat) : RO (derefLoc a i : M α _) := by
  refine RO.bind (obj_ro a) fun o => ?_
  split <;> exact RO.pure _

theorem derefLoc_nt (a : Addr) (i : Nat) : NT (derefLoc a i : M α _) := by
  refine NT.bind (obj_nt a) fun o => ?_
  split <;> exact NT.pure _

theorem derefV_ro (v : V α) : RO (derefV v) := by
  unfold derefV
  split
  · refine RO.bind (derefLoc_ro _ _) fun o => ?_
    split
    · refine RO.bind (readLoc_ro _) fun w => ?_
      split <;> first | exact RO.pure _ | exact RO.undef
    · exact RO.pure _
  · exact RO.pure _

theorem derefV_nt (v : V α) : NT (derefV v) := by
  unfold derefV
  split
  · refine NT.bind (derefLoc_nt _ _) fun o => ?_
    split
    · refine NT.bind (readLoc_nt _) fun w => ?_
      split <;> first | exact NT.pure _ | exact NT.undef
    · exact NT.pure _
  · exact NT.pure _

theorem heapOf_ro (v : V α) : RO (heapOf v) := by
  refine RO.bind (derefV_ro v) fun w => ?_
  split <;> exact RO.pure _

theorem heapOf_nt (v : V α) : NT (heapOf v) := by
  refine NT.bind (derefV_nt v) fun w => ?_
  split <;> exact NT.pure _

theorem sizeV_ro (v : V α) : RO (sizeV v) := by
  refine RO.bind (derefV_ro v) fun w => ?_
  split
  · exact RO.pure _
  · exact RO.bind (obj_ro _) fun o => RO.pure _
  · exact RO.pure _

theorem sizeV_nt (v : V α) : NT (sizeV v) := by
  refine NT.bind (derefV_nt v) fun w => ?_
  split
  · exact NT.pure _
  · exact NT.bind (obj_nt _) fun o => NT.pure _
  · exact NT.pure _

theorem typeV_ro (v : V α) : RO (typeV v) := by
  refine RO.bind (derefV_ro v) fun w => ?_
  split
  · exact RO.pure _
  · exact RO.pure _
  · exact RO.pure _
  · exact RO.pure _
  · exact RO.bind (obj_ro _) fun o => RO.pure _

theorem typeV_nt (v : V α) : NT (typeV v) := by
  refine NT.bind (derefV_nt v) fun w => ?_
  split
  · exact NT.pure _
  · exact NT.pure _
  · exact NT.pure _
  · exact NT.pure _
  · exact NT.bind (obj_nt _) fun o => NT.pure _

theorem definedV_ro (v : V α) : RO (definedV v) := by
  refine RO.bind (derefV_ro v) fun w => ?_
  split <;> exact RO.pure _

theorem definedV_nt (v : V α) : NT (definedV v) := by
  refine NT.bind (derefV_nt v) fun w => ?_
  split <;> exact NT.pure _

theorem rawAt_ro (a : Addr) (i : Nat) : RO (rawAt a i : M α α) := by
  refine RO.bind (obj_ro a) fun o => ?_
  split <;> first | exact RO.pure _ | exact RO.undef

theorem rawAt_nt (a : Addr) (i : Nat) : NT (rawAt a i : M α α) := by
  refine NT.bind (obj_nt a) fun o => ?_
  split <;> first | exact NT.pure _ | exact NT.undef

theorem getV_ro (k : Kind) (v : V α) : RO (getV k v) := by
  refine RO.bind (derefV_ro v) fun w => ?_
  split
  · split <;> first | exact RO.pure _ | exact RO.undef
  · refine RO.bind (obj_ro _) fun o => ?_
    split <;> first | exact rawAt_ro _ _ | exact RO.undef
  · refine RO.bind (obj_ro _) fun o => ?_
    split <;> first | exact rawAt_ro _ _ | exact RO.undef
  · exact RO.undef

theorem castV_ro [Env α] (k : Kind) (v : V α) : RO (castV k v) := by
  refine RO.bind (derefV_ro v) fun w => ?_
  split
  · exact RO.pure _
  · exact RO.throwE
  · exact RO.bind (obj_ro _) fun o => RO.bind (rawAt_ro _ _) fun x => RO.pure _
  · exact RO.undef
  · refine RO.bind (obj_ro _) fun o => ?_
    split
    · exact rawAt_ro _ _
    · exact RO.undef
    · split <;> first | exact RO.pure _ | exact RO.throwE
    · exact RO.undef

end Libube.Mem

import Verif.Lemmas.MemNice
import Verif.Lemmas.MemArray
import Verif.Spec.MemShare

/-! # What calls leave alone -/

namespace Libube.Mem

open MemSpec

variable {α β γ : Type}

/-- Variables with known values, and arrays whose elements stay as they are in a given state. -/
structure Fr (α : Type) where
  L : Nat → V α → Prop
  F : Addr → Prop
  s0 : State α

def Fr.Inv (f : Fr α) (s : State α) : Prop :=
  (∀ n v, f.L n v → s.stk[n]? = some v) ∧ f.s0.mem.length ≤ s.mem.length ∧
  ∀ (b : Nat), f.F b → b < f.s0.mem.length ∧ ∀ o : Obj α, s.mem[b]? = some (some o) →
    ∃ o0 : Obj α, f.s0.mem[b]? = some (some o0) ∧ o.kind = o0.kind ∧ o.size = o0.size ∧ o.cells = o0.cells

def Fr.Post (f : Fr α) (r : R α β) (Q : β → Prop) : Prop :=
  match r with
  | .ok b s' => f.Inv s' ∧ Q b
  | .thrown _ s' => f.Inv s'
  | _ => True

/-- The call keeps the frame, and its result is as `Q` says. -/
def Fr.H (f : Fr α) (m : M α β) (Q : β → Prop) : Prop := ∀ s, f.Inv s → f.Post (m s) Q

def Fr.NoF (f : Fr α) : Prop := ∀ b, ¬ f.F b

/-- The call may write there. -/
def Fr.Free (f : Fr α) : Loc → Prop
  | .slot n => ∀ v, ¬ f.L n v
  | .cell b _ => ¬ f.F b
  | .key b _ => ¬ f.F b

def Fr.track (f : Fr α) (n : Nat) (v : V α) : Fr α := { f with L := fun m w => f.L m w ∨ (m = n ∧ w = v) }

abbrev Any : β → Prop := fun _ => True

variable {f : Fr α}

theorem Fr.Inv.set {s : State α} (h : f.Inv s) {a : Addr} (x : Option (Obj α))
    (hx : f.F a → ∀ o', x = some o' → ∃ o, s.mem[a]? = some (some o) ∧ o'.kind = o.kind ∧ o'.size = o.size ∧ o'.cells = o.cells) :
    f.Inv { s with mem := s.mem.set a x } := by
  refine ⟨h.1, by simpa using h.2.1, fun b hb => ⟨(h.2.2 b hb).1, fun o ho => ?_⟩⟩
  simp only [List.getElem?_set] at ho
  by_cases hab : a = b
  · subst hab
    have hlt : a < s.mem.length := by
      have := (h.2.2 a hb).1
      have := h.2.1
      omega
    rw [if_pos rfl, if_pos hlt] at ho
    cases ho
    obtain ⟨o1, h1, h2, h3, h4⟩ := hx hb o rfl
    obtain ⟨o0, h5, h6, h7, h8⟩ := (h.2.2 a hb).2 o1 h1
    exact ⟨o0, h5, h2.trans h6, h3.trans h7, h4.trans h8⟩
  · rw [if_neg hab] at ho
    exact (h.2.2 b hb).2 o ho

theorem Fr.Inv.append {s : State α} (h : f.Inv s) (x : Option (Obj α)) : f.Inv { s with mem := s.mem ++ [x] } := by
  refine ⟨h.1, ?_, fun b hb => ⟨(h.2.2 b hb).1, fun o ho => ?_⟩⟩
  · have := h.2.1
    simp only [List.length_append, List.length_singleton]
    omega
  · have h1 := (h.2.2 b hb).1
    have h2 := h.2.1
    simp only at ho
    rw [List.getElem?_append_left (by omega)] at ho
    exact (h.2.2 b hb).2 o ho

theorem Fr.Post.mono {r : R α β} {Q Q' : β → Prop} (h : f.Post r Q) (hq : ∀ b, Q b → Q' b) : f.Post r Q' := by
  cases r <;> first | exact ⟨h.1, hq _ h.2⟩ | exact h

theorem Fr.H.mono {m : M α β} {Q Q' : β → Prop} (h : f.H m Q) (hq : ∀ b, Q b → Q' b) : f.H m Q' :=
  fun s hs => (h s hs).mono hq

theorem Fr.H.any {m : M α β} {Q : β → Prop} (h : f.H m Q) : f.H m Any := h.mono fun _ _ => trivial

theorem Fr.H.pure {b : β} {Q : β → Prop} (h : Q b) : f.H (pure b : M α β) Q := fun _ hs => ⟨hs, h⟩
theorem Fr.H.undef {u : UB} {Q : β → Prop} : f.H (undef u : M α β) Q := fun _ _ => trivial
theorem Fr.H.abort {Q : β → Prop} : f.H (abortM : M α β) Q := fun _ _ => trivial
theorem Fr.H.throwE {e : Exn} {Q : β → Prop} : f.H (throwE e : M α β) Q := fun _ hs => hs

theorem Fr.Post.bind {r : R α β} {k : β → M α γ} {Q : β → Prop} {Q' : γ → Prop} (h : f.Post r Q)
    (hk : ∀ b, Q b → f.H (k b) Q') : f.Post (M.bind (fun _ => r) k ⟨[], []⟩) Q' := by
  unfold M.bind
  cases r with
  | ok b s' => exact hk b h.2 s' h.1
  | thrown e s' => exact h
  | _ => trivial

theorem Fr.H.bind {m : M α β} {k : β → M α γ} {Q : β → Prop} {Q' : γ → Prop} (h : f.H m Q)
    (hk : ∀ b, Q b → f.H (k b) Q') : f.H (m >>= k) Q' := by
  intro s hs
  rw [bind_run]
  unfold M.bind
  have h1 := h s hs
  revert h1
  cases m s with
  | ok b s' => exact fun h1 => hk b h1.2 s' h1.1
  | thrown e s' => exact fun h1 => h1
  | _ => exact fun _ => trivial

theorem RO.frame {m : M α β} (h : RO m) : f.H m Any := by
  intro s hs
  have h1 := h s
  revert h1
  cases m s with
  | ok b s' => exact fun h1 => ⟨h1 ▸ hs, trivial⟩
  | thrown e s' => exact fun h1 => by show f.Inv s'; rw [h1]; exact hs
  | _ => exact fun _ => trivial

/-- Calls that change nothing, with what is known of the result. -/
theorem RO.frameQ {m : M α β} (h : RO m) {Q : β → Prop} (hq : ∀ s b, f.Inv s → m s = .ok b s → Q b) : f.H m Q := by
  intro s hs
  have h1 := h s
  have h2 := hq s
  revert h1 h2
  cases m s with
  | ok b s' => rintro h1 h2; cases h1; exact ⟨hs, h2 b hs rfl⟩
  | thrown e s' => exact fun h1 _ => by show f.Inv s'; rw [h1]; exact hs
  | _ => exact fun _ _ => trivial

theorem setObj_frame {a : Addr} (o : Obj α) (ha : ¬ f.F a) : f.H (setObj a o) Any :=
  fun _ hs => ⟨hs.set _ fun h => absurd h ha, trivial⟩

theorem attachV_frame (v : V α) : f.H (attachV v) Any := by
  unfold attachV
  cases v.ptr with
  | none => exact .pure trivial
  | some a =>
    intro s hs
    show f.Post (M.bind (obj a) (fun o => setObj a { o with rc := o.rc + 1 }) s) Any
    unfold M.bind obj
    cases hm : s.mem[a]? with
    | none => trivial
    | some x =>
      cases x with
      | none => trivial
      | some o => exact ⟨hs.set _ fun _ o' ho' => ⟨o, hm, by cases ho'; simp⟩, trivial⟩

theorem release_frame (n : Nat) (l : List Addr) (mem mem' : List (Option (Obj α))) (stk : List (V α)) (h : f.Inv ⟨mem, stk⟩)
    (hr : release n l mem = .ok mem') : f.Inv ⟨mem', stk⟩ := by
  induction n generalizing l mem with
  | zero =>
    cases l with
    | nil => simp only [release] at hr; cases hr; exact h
    | cons a l => simp only [release] at hr; cases hr
  | succ n ih =>
    cases l with
    | nil => simp only [release] at hr; cases hr; exact h
    | cons a l =>
      simp only [release] at hr
      cases hm : mem[a]? with
      | none => rw [hm] at hr; cases hr
      | some x =>
        cases x with
        | none => rw [hm] at hr; cases hr
        | some o =>
          rw [hm] at hr
          simp only at hr
          split at hr
          · cases hr
          · split at hr
            · exact ih _ _ (h.set none fun _ _ h => by cases h) hr
            · exact ih _ _ (h.set _ fun _ o' ho' => ⟨o, hm, by cases ho'; simp⟩) hr

theorem detachV_frame (v : V α) : f.H (detachV v) Any := by
  intro s hs
  simp only [detachV, bind_run, M.bind, getMem, liftO]
  cases hr : release (weight s.mem + 1) v.ptr.toList s.mem with
  | ok mem' => exact ⟨release_frame _ _ _ _ _ hs hr, trivial⟩
  | thrown e => exact hs
  | _ => trivial

theorem copyV_frame (v : V α) : f.H (copyV v) (· = v) := .bind (attachV_frame v) fun _ _ => .pure rfl

theorem writeLoc_frame {l : Loc} (v : V α) (hl : f.Free l) : f.H (writeLoc l v) Any := by
  cases l with
  | slot n =>
    intro s hs
    unfold writeLoc
    simp only
    split
    · refine ⟨⟨fun m w hm => ?_, hs.2⟩, trivial⟩
      have : n ≠ m := fun h => hl w (h ▸ hm)
      simp only
      rw [List.getElem?_set_ne this]
      exact hs.1 m w hm
    · trivial
  | cell a i =>
    refine .bind (RO.frame (obj_ro a)) fun o _ => ?_
    split
    · exact setObj_frame _ hl
    · exact setObj_frame _ hl
    · exact .undef
    · exact .undef
  | key a i =>
    refine .bind (RO.frame (obj_ro a)) fun o _ => ?_
    split
    · exact setObj_frame _ hl
    · exact .undef
    · exact .undef

theorem setRaw_frame {a : Addr} (i : Nat) (x : α) (ha : ¬ f.F a) : f.H (setRaw a i x) Any := by
  refine .bind (RO.frame (obj_ro a)) fun o _ => ?_
  split
  · exact setObj_frame _ ha
  · exact .undef
  · exact .undef

theorem liftO_ro (x : Outcome β) : RO (liftO x : M α β) := by
  intro s
  unfold liftO
  cases x <;> simp

theorem heapResize_frame [Env α] {a : Addr} (n : Nat) (ha : ¬ f.F a) : f.H (heapResize a n) Any :=
  .bind (RO.frame (obj_ro a)) fun _ _ => .bind (RO.frame (liftO_ro _)) fun _ _ => setObj_frame _ ha

theorem pushObj_frame (o : Obj α) : f.H (pushObj o) (fun a => ¬ f.F a) := by
  intro s hs
  refine ⟨hs.append _, fun h => ?_⟩
  have := (hs.2.2 _ h).1
  have := hs.2.1
  omega

theorem newHeap_frame [Env α] (n : Nat) (k : Option Kind) : f.H (newHeap n k) (fun a => ¬ f.F a) :=
  .bind (RO.frame (liftO_ro _)) fun o _ => pushObj_frame o

theorem Fr.Inv.take {s s' : State α} (hs : f.Inv s) (h : f.Inv s') : f.Inv { s' with stk := s'.stk.take s.stk.length } := by
  refine ⟨fun m w hm => ?_, h.2⟩
  have h1 := (List.getElem?_eq_some_iff.1 (hs.1 m w hm)).1
  rw [List.getElem?_take, if_pos h1]
  exact h.1 m w hm

theorem withVar_frame' {v : V α} {g : Loc → M α β} {Q : β → Prop}
    (h : ∀ n s, f.Free (.slot n) → f.Inv s → s.stk[n]? = some v → f.Post (g (.slot n) s) Q) : f.H (withVar v g) Q := by
  intro s hs
  have hi : f.Inv { s with stk := s.stk ++ [v] } := ⟨fun m w hm => slot_append (hs.1 m w hm), hs.2⟩
  have hfree : f.Free (.slot s.stk.length) := by
    intro w hw
    have := (List.getElem?_eq_some_iff.1 (hs.1 _ w hw)).1
    omega
  have h1 := h s.stk.length { s with stk := s.stk ++ [v] } hfree hi (by simp)
  unfold withVar
  revert h1
  simp only
  cases g (.slot s.stk.length) { s with stk := s.stk ++ [v] } with
  | ok b s' =>
    intro h1
    simp only
    cases hw : s'.stk[s.stk.length]? with
    | none => trivial
    | some w =>
      have h2 := detachV_frame w { s' with stk := s'.stk.take s.stk.length } (hs.take h1.1)
      simp only
      revert h2
      cases detachV w { s' with stk := s'.stk.take s.stk.length } with
      | ok u s2 => exact fun h2 => ⟨h2.1, h1.2⟩
      | thrown e s2 => exact fun h2 => h2
      | _ => exact fun _ => trivial
  | thrown e s' =>
    intro h1
    simp only
    cases hw : s'.stk[s.stk.length]? with
    | none => trivial
    | some w =>
      have h2 := detachV_frame w { s' with stk := s'.stk.take s.stk.length } (hs.take h1)
      simp only
      revert h2
      cases detachV w { s' with stk := s'.stk.take s.stk.length } with
      | ok u s2 => exact fun h2 => h2.1
      | thrown e s2 => exact fun h2 => h2
      | _ => exact fun _ => trivial
  | _ => exact fun _ => trivial

theorem withVar_frame {v : V α} {g : Loc → M α β} {Q : β → Prop}
    (h : ∀ n, f.Free (.slot n) → f.H (g (.slot n)) Q) : f.H (withVar v g) Q :=
  withVar_frame' fun n s hn hs _ => h n hn s hs

theorem Fr.track_inv {s : State α} {n : Nat} {v : V α} (hs : f.Inv s) (h : s.stk[n]? = some v) : (f.track n v).Inv s := by
  refine ⟨fun m w hm => ?_, hs.2⟩
  rcases hm with hm | ⟨rfl, rfl⟩
  · exact hs.1 m w hm
  · exact h

theorem withVar_track {v : V α} {g : Loc → M α β} {Q : β → Prop}
    (h : ∀ n, (f.track n v).H (g (.slot n)) Q) : f.H (withVar v g) Q := by
  refine withVar_frame' fun n s hn hs hv => ?_
  have h1 := h n s (f.track_inv hs hv)
  revert h1
  cases g (.slot n) s with
  | ok b s' => exact fun h1 => ⟨⟨fun m w hm => h1.1.1 m w (.inl hm), h1.1.2⟩, h1.2⟩
  | thrown e s' => exact fun h1 => ⟨fun m w hm => h1.1 m w (.inl hm), h1.2⟩
  | _ => exact fun _ => trivial

theorem readSlot_frame {n : Nat} {v : V α} (h : f.L n v) : f.H (readLoc (.slot n)) (· = v) := by
  intro s hs
  rw [readSlot (hs.1 n v h)]
  exact ⟨hs, rfl⟩

theorem share_frame {l : Loc} (v : V α) (hl : f.Free l) : f.H (share l v) Any := by
  refine .bind (RO.frame (readLoc_ro l)) fun t _ => .bind (attachV_frame v) fun _ _ =>
    .bind (writeLoc_frame v hl) fun _ _ => ?_
  cases t <;> first | exact detachV_frame _ | exact .pure trivial

theorem dereference_frame [Env α] {l : Loc} (hl : f.Free l) :
    f.H (dereference l) (fun r => r = l ∨ ∃ a i, r = .cell a i) := by
  refine .bind (RO.frame (readLoc_ro l)) fun v _ => ?_
  cases v with
  | ref a i =>
    refine Fr.H.bind (RO.frameQ (derefLoc_ro a i) (Q := fun r? => ∀ r, r? = some r → r = .cell a i) fun s b _ hb => ?_) fun r? hr => ?_
    · unfold derefLoc at hb
      obtain ⟨o, s1, ho, hb⟩ := bind_ok hb
      revert hb
      cases o.kind <;> intro hb <;> cases hb <;> simp
    · cases r? with
      | some r =>
        simp only
        split
        · exact .bind (RO.frame (obj_ro a)) fun _ _ => .bind (writeLoc_frame _ hl) fun _ _ => .throwE
        · refine .bind (writeLoc_frame _ hl) fun _ _ => .bind (RO.frame (readLoc_ro r)) fun w _ => ?_
          have tail : ∀ w : V α, f.H (attachV w >>= fun _ => share l w >>= fun _ => detachV w >>= fun _ => pure r : M α Loc)
              (fun r => r = l ∨ ∃ a i, r = .cell a i) := fun w =>
            .bind (attachV_frame w) fun _ _ => .bind (share_frame w hl) fun _ _ => .bind (detachV_frame w) fun _ _ =>
              .pure (.inr ⟨a, i, hr r rfl⟩)
          cases w <;> first | exact tail _ | exact fun _ _ => trivial
      | none =>
        refine .bind (RO.frame (obj_ro a)) fun o _ => .bind (RO.frame (rawAt_ro a i)) fun x _ => ?_
        split
        · exact .bind (newHeap_frame 1 _) fun b hb => .bind (setRaw_frame 0 x hb) fun _ _ =>
            .bind (writeLoc_frame _ hl) fun _ _ => .bind (detachV_frame _) fun _ _ => .pure (.inl rfl)
        · exact .bind (writeLoc_frame _ hl) fun _ _ => .bind (detachV_frame _) fun _ _ => .pure (.inl rfl)
  | _ => exact Fr.H.pure (.inl rfl)

/-- A variable known to hold an array. -/
theorem dereference_known [Env α] {n : Nat} {a : Addr} (h : f.L n (.arr a)) : f.H (dereference (.slot n)) (· = .slot n) := by
  refine .bind (readSlot_frame h) fun v hv => ?_
  subst hv
  exact .pure rfl

theorem assignPlain_frame [Env α] {l : Loc} (v : V α) (hl : f.Free l) : f.H (assignPlain l v) Any := by
  refine withVar_frame fun n _ => .bind (RO.frame (readLoc_ro l)) fun t _ => ?_
  have : f.H (share l v >>= fun _ => dereference l >>= fun _ => pure ()) Any :=
    .bind (share_frame v hl) fun _ _ => .bind (dereference_frame hl) fun _ _ => .pure trivial
  cases t <;> first | exact this | exact .undef

/-- Assigning through a reference to an array that may change. -/
theorem assignRef_frame [Env α] {a : Addr} {i : Nat} (v : V α) (ha : ¬ f.F a) : f.H (withVar v fun _ => do
    let o ← obj a
    match o.kind with
    | .var | .pair => do
      attachV v
      assignPlain (.cell a i) v
    | k => do
      let x ← castV k v
      setRaw a i x) Any := by
  refine withVar_frame fun _ _ => .bind (RO.frame (obj_ro a)) fun o _ => ?_
  have h1 : f.H (attachV v >>= fun _ => assignPlain (.cell a i) v) Any :=
    .bind (attachV_frame v) fun _ _ => assignPlain_frame v ha
  have h2 : ∀ k, f.H (castV k v >>= fun x => setRaw a i x) Any := fun k =>
    .bind (RO.frame (castV_ro k v)) fun x _ => setRaw_frame i x ha
  cases o.kind <;> first | exact h1 | exact h2 _

theorem assign_known [Env α] {n : Nat} {a : Addr} {i : Nat} (v : V α) (h : f.L n (.ref a i)) (ha : ¬ f.F a) :
    f.H (assign (.slot n) v) Any := by
  refine .bind (readSlot_frame h) fun t ht => ?_
  subst ht
  exact assignRef_frame v ha

theorem assign_free [Env α] {l : Loc} (v : V α) (hl : f.Free l) (hn : f.NoF) : f.H (assign l v) Any := by
  refine .bind (RO.frame (readLoc_ro l)) fun t _ => ?_
  cases t with
  | ref a i => exact assignRef_frame v (hn a)
  | _ => exact assignPlain_frame v hl

theorem attachV_stk {v : V α} {s s' : State α} {u : Unit} (h : attachV v s = .ok u s') : s'.stk = s.stk := by
  unfold attachV at h
  cases hp : v.ptr with
  | none => rw [hp] at h; cases h; rfl
  | some a =>
    rw [hp] at h
    obtain ⟨o, s1, ho, h⟩ := bind_ok h
    rw [(obj_ok ho).1] at h
    cases h
    rfl

/-- Assigning to a temporary that refers to an array that may change. -/
theorem setTemp_frame [Env α] {r : V α} (v : V α) (hr : ∀ a, r.ptr = some a → ¬ f.F a) : f.H (withVar r fun lr => do
      attachV v
      assign lr v) Any := by
  cases r with
  | ref a i =>
    exact withVar_track fun n => .bind (attachV_frame v) fun _ _ => assign_known v (.inr ⟨rfl, rfl⟩) (hr a rfl)
  | _ =>
    refine withVar_frame' fun n s hn hs hv => ?_
    rw [bind_run]
    unfold M.bind
    have h1 := attachV_frame v s hs
    revert h1
    cases hat : attachV v s with
    | ok u s1 =>
      intro h1
      have hv1 := attachV_stk hat ▸ hv
      simp only
      unfold assign
      rw [bind_eq (readSlot hv1)]
      exact assignPlain_frame v hn s1 h1.1
    | thrown e s1 => exact fun h1 => h1
    | _ => exact fun _ => trivial

theorem reference_frame (v : V α) (i : Int) : f.H (reference v i) (fun r => r.ptr = v.ptr) := by
  refine .bind (RO.frame (typeV_ro v)) fun t _ => ?_
  cases t with
  | some k => exact .throwE
  | none =>
    cases v with
    | nil => exact .undef
    | bad k => exact .undef
    | num k x => exact .undef
    | arr a =>
      simp only
      split
      · exact .undef
      · refine .bind (attachV_frame _) fun _ _ => .pure ?_
        split <;> rfl
    | ref a j =>
      simp only
      split
      · exact .undef
      · refine .bind (attachV_frame _) fun _ _ => .pure ?_
        split <;> rfl

theorem at'_any [Env α] (v : V α) (i : Int) : f.H (at' v i) Any := by
  refine .bind (attachV_frame v) fun _ _ => withVar_frame fun n hn => .bind (dereference_frame hn) fun _ _ =>
    .bind (RO.frame (readLoc_ro _)) fun w _ => ?_
  have h1 : ∀ w : V α, f.H (if i = 0 then copyV w else throwE (.error "var::at(): Index out of bounds") : M α (V α)) Any := by
    intro w
    split
    · exact (copyV_frame w).any
    · exact .throwE
  cases w <;> first | exact h1 _ | exact .throwE | exact (reference_frame _ _).any

/-- A var that is an array that may change. -/
def Fr.Arr (f : Fr α) (v : V α) : Prop := ∃ a, v = .arr a ∧ ¬ f.F a

theorem at'_frame [Env α] {v : V α} (i : Int) (hv : f.Arr v ∨ f.NoF) :
    f.H (at' v i) (fun r => ∀ a, r.ptr = some a → ¬ f.F a) := by
  rcases hv with ⟨a, rfl, ha⟩ | hv
  · refine .bind (attachV_frame _) fun _ _ => withVar_track fun n => ?_
    have hL : (f.track n (.arr a)).L n (.arr a) := .inr ⟨rfl, rfl⟩
    refine .bind (dereference_known hL) fun _ _ => .bind (readSlot_frame hL) fun w hw => ?_
    subst hw
    exact (reference_frame _ i).mono fun r hr b hb => by rw [hr] at hb; cases hb; exact ha
  · exact (at'_any v i).mono fun _ _ a _ => hv a

theorem setAt_frame [Env α] {t : V α} (i : Int) (v : V α) (ht : f.Arr t ∨ f.NoF) : f.H (setAt t i v) Any :=
  withVar_frame fun _ _ => .bind (at'_frame i ht) fun _ hr => setTemp_frame v hr

theorem wrap_frame [Env α] {l : Loc} (n : Nat) (hl : f.Free l) (hn : f.NoF) : f.H (wrap l n) Any := by
  refine .bind (RO.frame (readLoc_ro l)) fun v _ => ?_
  cases v with
  | nil => exact .bind (newHeap_frame n _) fun b _ => writeLoc_frame _ hl
  | bad k => exact .bind (newHeap_frame n _) fun b _ => .bind (writeLoc_frame _ hl) fun _ _ => setAt_frame 0 _ (.inr hn)
  | num k x => exact .bind (newHeap_frame n _) fun b _ => .bind (writeLoc_frame _ hl) fun _ _ => setAt_frame 0 _ (.inr hn)
  | arr a => exact .undef
  | ref a i => exact .undef

/-- A place calls may work on: a variable known to hold an array that may change, or any other place if no
    array is protected. -/
def Fr.Okay (f : Fr α) (l : Loc) : Prop := (∃ n a, l = .slot n ∧ f.L n (.arr a) ∧ ¬ f.F a) ∨ (f.Free l ∧ f.NoF)

theorem okay_read {l : Loc} (hl : f.Okay l) : f.H (readLoc l) (fun v => f.Arr v ∨ (f.Free l ∧ f.NoF)) := by
  rcases hl with ⟨n, a, rfl, h, ha⟩ | hl
  · exact (readSlot_frame h).mono fun v hv => .inl ⟨a, hv, ha⟩
  · exact (RO.frame (readLoc_ro l)).mono fun _ _ => .inr hl

theorem okay_deref [Env α] {l : Loc} (hl : f.Okay l) : f.H (dereference l) f.Okay := by
  rcases hl with ⟨n, a, rfl, h, ha⟩ | ⟨hl, hn⟩
  · exact (dereference_known h).mono fun r hr => .inl ⟨n, a, hr, h, ha⟩
  · refine (dereference_frame hl).mono ?_
    rintro r (rfl | ⟨a, i, rfl⟩)
    · exact .inr ⟨hl, hn⟩
    · exact .inr ⟨hn a, hn⟩

theorem heapOf_frame {v : V α} (hv : f.Arr v ∨ f.NoF) : f.H (heapOf v) (fun x => ∀ a, x = some a → ¬ f.F a) := by
  rcases hv with ⟨a, rfl, ha⟩ | hv
  · refine RO.frameQ (heapOf_ro _) fun s b _ hb => ?_
    rw [heapOf_arr] at hb
    cases hb
    rintro _ ⟨⟩
    exact ha
  · exact (RO.frame (heapOf_ro v)).mono fun _ _ a _ => hv a

theorem Arr.of {v : V α} {p : Prop} (h : f.Arr v ∨ (p ∧ f.NoF)) : f.Arr v ∨ f.NoF := h.imp_right And.right

theorem resize_frame [Env α] {l : Loc} (n : Int) (hl : f.Okay l) : f.H (resize l n) Any := by
  unfold resize
  split
  · exact .abort
  · refine .bind (okay_deref hl) fun r hr => .bind (okay_read hr) fun v hv => ?_
    have h1 : f.H (readLoc l >>= fun w => heapOf w >>= fun x => match x with
        | some a => heapResize a n.toNat
        | none => undef .nullDeref : M α Unit) Any :=
      .bind (okay_read hl) fun w hw => .bind (heapOf_frame (Arr.of hw)) fun x hx => by
        cases x with
        | none => exact .undef
        | some a => exact heapResize_frame _ (hx a rfl)
    rcases hv with ⟨a, rfl, ha⟩ | ⟨hf, hn⟩
    · exact h1
    · cases v with
      | arr a => exact h1
      | nil => exact wrap_frame _ hf hn
      | ref a i => exact .undef
      | bad k => simp only; split; exacts [wrap_frame _ hf hn, .pure trivial]
      | num k x => simp only; split; exacts [wrap_frame _ hf hn, .pure trivial]

theorem array_frame [Env α] {l : Loc} (hl : f.Okay l) : f.H (array l) Any := by
  refine .bind (okay_deref hl) fun r hr => .bind (okay_read hr) fun v hv => ?_
  rcases hv with ⟨a, rfl, ha⟩ | ⟨hf, hn⟩
  · exact .pure trivial
  · cases v with
    | arr a => exact .pure trivial
    | nil => exact .bind (wrap_frame _ hf hn) fun _ _ => .bind (RO.frame (readLoc_ro r)) fun _ _ => setAt_frame _ _ (.inr hn)
    | _ => exact wrap_frame _ hf hn

theorem presize_frame [Env α] {l : Loc} (n : Int) (hl : f.Okay l) : f.H (presize l n) Any :=
  .bind (RO.frame (readLoc_ro l)) fun v _ => .bind (RO.frame (sizeV_ro v)) fun m _ => .bind (resize_frame n hl) fun _ _ => resize_frame m hl

theorem fillRaw_frame {a : Addr} (ha : ¬ f.F a) (xs : List α) : ∀ i, f.H (fillRaw a i xs) Any := by
  induction xs with
  | nil => exact fun i => .pure trivial
  | cons x xs ih => exact fun i => .bind (setRaw_frame i x ha) fun _ _ => ih (i + 1)

theorem append_frame [Env α] {l : Loc} (k : Kind) (xs : List α) (hl : f.Okay l) : f.H (append l k xs) Any := by
  refine .bind (array_frame hl) fun _ _ => .bind (okay_read hl) fun w hw => .bind (heapOf_frame (Arr.of hw)) fun x hx => ?_
  cases x with
  | none => exact .undef
  | some a =>
    refine .bind (RO.frame (obj_ro a)) fun o _ => .bind (heapResize_frame _ (hx a rfl)) fun _ _ => ?_
    split
    · exact fillRaw_frame (hx a rfl) xs _
    · exact .undef

theorem indexPlain_frame [Env α] {l : Loc} (i : Int) (hl : f.Okay l) :
    f.H (indexPlain l i) (fun r => ∀ a, r.ptr = some a → ¬ f.F a) := by
  unfold indexPlain
  split
  · exact .throwE
  · refine .bind (RO.frame (readLoc_ro l)) fun _ _ => .bind (RO.frame (sizeV_ro _)) fun m _ => ?_
    have tail : f.H (array l >>= fun _ => readLoc l >>= fun w => reference w i) (fun r => ∀ a, r.ptr = some a → ¬ f.F a) :=
      .bind (array_frame hl) fun _ _ => .bind (okay_read hl) fun w hw => (reference_frame w i).mono fun r hr b hb => by
        rcases hw with ⟨a, rfl, ha⟩ | hw
        · rw [hr] at hb; cases hb; exact ha
        · exact hw.2 b
    split
    · exact .bind (resize_frame _ hl) fun _ _ => tail
    · exact tail

theorem index_frame [Env α] {l : Loc} (i : Int) (hl : f.Okay l) :
    f.H (index l i) (fun r => ∀ a, r.ptr = some a → ¬ f.F a) := by
  refine .bind (okay_read hl) fun t ht => ?_
  rcases ht with ⟨a, rfl, ha⟩ | ⟨hf, hn⟩
  · exact indexPlain_frame i hl
  · cases t with
    | ref a j =>
      simp only
      split
      · exact .throwE
      · refine .bind (RO.frameQ (derefLoc_ro a j) (Q := fun r? => ∀ r, r? = some r → f.Free r) fun s b _ hb => ?_) fun r? hr => ?_
        · unfold derefLoc at hb
          obtain ⟨o, s1, ho, hb⟩ := bind_ok hb
          revert hb
          cases o.kind <;> intro hb <;> cases hb <;> rintro _ ⟨⟩ <;> exact hn a
        · cases r? with
          | none => exact .throwE
          | some r =>
            refine .bind (RO.frame (readLoc_ro r)) fun w _ => ?_
            have := indexPlain_frame i (l := r) (.inr ⟨hr r rfl, hn⟩)
            cases w <;> first | exact this | exact .undef
    | _ => exact indexPlain_frame i hl

theorem setIndex_frame [Env α] {l : Loc} (i : Int) (v : V α) (hl : f.Okay l) : f.H (setIndex l i v) Any :=
  withVar_frame fun _ _ => .bind (index_frame i hl) fun _ hr => setTemp_frame v hr

theorem definedV_frame {v : V α} : f.H (definedV v) (fun b => f.Arr v → b = true) := by
  refine RO.frameQ (definedV_ro v) fun s b _ hb => ?_
  rintro ⟨a, rfl, -⟩
  rw [definedV_arr] at hb
  cases hb
  rfl

theorem push_frame [Env α] {l : Loc} (v : V α) (hl : f.Okay l) : f.H (push l v) Any := by
  refine withVar_frame fun _ _ => .bind (okay_read hl) fun t ht => .bind definedV_frame fun b hb => ?_
  have h1 : f.H (attachV v >>= fun _ => sizeV t >>= fun n => setIndex l n v) Any :=
    .bind (attachV_frame v) fun _ _ => .bind (RO.frame (sizeV_ro t)) fun _ _ => setIndex_frame _ v hl
  rcases ht with ht | ⟨hf, hn⟩
  · rw [hb ht]
    refine .bind (RO.frame (typeV_ro t)) fun _ _ => ?_
    refine .bind (RO.frame (typeV_ro v)) fun _ _ => .bind (RO.frame (typeV_ro t)) fun _ _ => ?_
    split
    · exact .throwE
    · exact h1
  · cases b with
    | false =>
      refine .bind (RO.frame (typeV_ro v)) fun _ _ => ?_
      split
      · exact .bind (attachV_frame v) fun _ _ => assign_free v hf hn
      · exact h1
    | true =>
      refine .bind (RO.frame (typeV_ro t)) fun _ _ => ?_
      refine .bind (RO.frame (typeV_ro v)) fun _ _ => .bind (RO.frame (typeV_ro t)) fun _ _ => ?_
      split
      · exact .throwE
      · exact h1

theorem pop_frame [Env α] {l : Loc} (hl : f.Okay l) : f.H (pop l) Any :=
  .bind (RO.frame (readLoc_ro l)) fun t _ => .bind (RO.frame (sizeV_ro t)) fun n _ => .bind (at'_any t _) fun r _ =>
    withVar_frame fun _ _ => .bind (resize_frame _ hl) fun _ _ => .bind (RO.frame (readLoc_ro _)) fun w _ => (copyV_frame w).any

theorem attachAll_frame (l : List Addr) : f.H (attachAll l : M α Unit) Any := by
  induction l with
  | nil => exact .pure trivial
  | cons a l ih => exact .bind (attachV_frame _) fun _ _ => ih

theorem copy_frame [Env α] (v : V α) : f.H (copy v) Any := by
  refine .bind (RO.frame (heapOf_ro v)) fun a? _ => ?_
  cases a? with
  | none => exact (copyV_frame v).any
  | some a =>
    exact .bind (RO.frame (obj_ro a)) fun o _ => .bind (RO.frame (liftO_ro _)) fun o' _ =>
      .bind (attachAll_frame _) fun _ _ => .bind (pushObj_frame o') fun _ _ => .pure trivial

theorem moveUp_frame [Env α] {l : Loc} (hl : f.Okay l) (d i n : Nat) : f.H (moveUp l d i n) Any := by
  induction n generalizing i with
  | zero => exact .pure trivial
  | succ n ih =>
    exact .bind (okay_read hl) fun t ht => .bind (at'_any t _) fun x _ => .bind (setAt_frame _ x (Arr.of ht)) fun _ _ => ih _

theorem moveDown_frame [Env α] {l : Loc} (hl : f.Okay l) (i n : Nat) : f.H (moveDown l i n) Any := by
  induction n generalizing i with
  | zero => exact .pure trivial
  | succ n ih =>
    exact .bind (okay_read hl) fun t ht => .bind (at'_any t _) fun x _ => .bind (setAt_frame _ x (Arr.of ht)) fun _ _ => ih _

theorem remove_frame [Env α] {l : Loc} (hl : f.Okay l) (i : Nat) : f.H (remove l i) Any := by
  refine .bind (RO.frame (readLoc_ro l)) fun t _ => .bind (RO.frame (sizeV_ro t)) fun n _ => ?_
  split
  · exact .throwE
  · exact .bind (at'_any t _) fun x _ => .bind (withVar_frame fun _ _ => .bind (RO.frame (readLoc_ro _)) fun w _ => copy_frame w)
      fun r _ => withVar_frame fun _ _ => .bind (moveDown_frame hl _ _) fun _ _ => .bind (resize_frame _ hl) fun _ _ =>
        .bind (RO.frame (readLoc_ro _)) fun w _ => (copyV_frame w).any

theorem copyIn_frame [Env α] {l lv : Loc} (hn : f.NoF) (hv : f.Free lv) (p : Int) (i n : Nat) : f.H (copyIn l lv p i n) Any := by
  induction n generalizing i with
  | zero => exact .pure trivial
  | succ n ih =>
    refine .bind (RO.frame (readLoc_ro lv)) fun w _ => .bind (RO.frame (sizeV_ro w)) fun m _ => ?_
    split
    · exact .bind (index_frame _ (.inr ⟨hv, hn⟩)) fun x _ => .bind (RO.frame (readLoc_ro l)) fun t _ =>
        .bind (setAt_frame _ x (.inr hn)) fun _ _ => ih _
    · exact .pure trivial

theorem movePairsUp_frame [Env α] {l : Loc} (hn : f.NoF) (i n : Nat) : f.H (movePairsUp l i n) Any := by
  induction n generalizing i with
  | zero => exact .pure trivial
  | succ n ih =>
    refine .bind (RO.frame (readLoc_ro l)) fun t _ => .bind (RO.frame (heapOf_ro t)) fun a? _ => ?_
    cases a? with
    | none => exact .undef
    | some a =>
      refine .bind (RO.frame (obj_ro a)) fun o _ => ?_
      split
      · exact .throwE
      · split
        · exact .throwE
        · exact .bind (RO.frame (readLoc_ro _)) fun k _ => .bind (attachV_frame k) fun _ _ =>
            .bind (assignPlain_frame k (hn a)) fun _ _ => .bind (at'_any t _) fun x _ =>
            .bind (setAt_frame _ x (.inr hn)) fun _ _ => ih _

theorem kindAt_ro (l : Loc) : RO (kindAt l : M α (Option Kind)) := by
  unfold kindAt
  refine RO.bind (readLoc_ro l) fun v => RO.bind (heapOf_ro v) fun a? => ?_
  cases a? with
  | none => exact RO.pure _
  | some a => exact RO.bind (obj_ro a) fun o => RO.pure _

theorem insert_frame [Env α] {l : Loc} (hn : f.NoF) (hl : f.Okay l) (v : V α) (p : Nat) : f.H (insert l v p) Any := by
  refine withVar_frame fun lv hlv => .bind (RO.frame (readLoc_ro l)) fun t _ => .bind (RO.frame (sizeV_ro t)) fun n _ => ?_
  split
  · exact .throwE
  · refine .bind (RO.frame (kindAt_ro l)) fun k _ => ?_
    split
    · exact .bind (resize_frame _ hl) fun _ _ => .bind (moveUp_frame hl _ _ _) fun _ _ => .bind (attachV_frame v) fun _ _ =>
        .bind (RO.frame (readLoc_ro l)) fun _ _ => setAt_frame _ v (.inr hn)
    · refine .bind (resize_frame _ hl) fun _ _ => .bind (movePairsUp_frame hn _ _) fun _ _ =>
        .bind (RO.frame (readLoc_ro l)) fun t _ => .bind (RO.frame (heapOf_ro t)) fun a? _ => ?_
      cases a? with
      | none => exact .undef
      | some a =>
        exact .bind (attachV_frame v) fun _ _ => .bind (assignPlain_frame v (hn a)) fun _ _ =>
          .bind (RO.frame (readLoc_ro l)) fun _ _ => setAt_frame _ _ (.inr hn)
    · exact .bind (RO.frame (sizeV_ro v)) fun m _ => .bind (resize_frame _ hl) fun _ _ => .bind (RO.frame (readLoc_ro l)) fun _ _ =>
        .bind (RO.frame (sizeV_ro _)) fun n' _ => .bind (RO.frame (readLoc_ro _)) fun _ _ => .bind (RO.frame (sizeV_ro _)) fun m' _ =>
        .bind (moveUp_frame hl _ _ _) fun _ _ => .bind (RO.frame (readLoc_ro _)) fun _ _ => .bind (RO.frame (sizeV_ro _)) fun _ _ =>
        copyIn_frame hn hlv _ _ _

theorem destroy_frame (l : List Addr) : f.H (destroy l : M α Unit) Any := by
  induction l with
  | nil => exact .pure trivial
  | cons a l ih => exact .bind ih fun _ _ => detachV_frame _

theorem boxed_frame [Env α] (k : Kind) (x : α) : f.H (boxed k x) Any := by
  unfold boxed
  split
  · exact .bind (newHeap_frame 1 _) fun b hb => .bind (setRaw_frame 0 x hb) fun _ _ => .pure trivial
  · exact .pure trivial

theorem heapShift_frame [Env α] {a : Addr} (ha : ¬ f.F a) : f.H (heapShift a) Any := by
  refine .bind (RO.frame (obj_ro a)) fun o _ => ?_
  split
  · exact .undef
  · split
    · unfold shiftVars
      split
      · exact .undef
      · exact .bind (RO.frame (readLoc_ro _)) fun v _ => .bind (setObj_frame _ ha) fun _ _ => .bind (attachV_frame v) fun _ _ =>
          .bind (destroy_frame _) fun _ _ => .bind (heapResize_frame _ ha) fun _ _ => .pure trivial
    · exact .bind (RO.frame (rawAt_ro a 0)) fun x _ => .bind (setObj_frame _ ha) fun _ _ => .bind (heapResize_frame _ ha) fun _ _ =>
        boxed_frame _ _

theorem shift_frame [Env α] {l : Loc} (hl : f.Okay l) : f.H (shift l) Any := by
  refine .bind (okay_read hl) fun t ht => .bind (heapOf_frame (Arr.of ht)) fun a? ha => ?_
  cases a? with
  | none => exact (copyV_frame t).any
  | some a => exact heapShift_frame (ha a rfl)

theorem heapUnshift_frame [Env α] {a : Addr} (v : V α) (ha : ¬ f.F a) : f.H (heapUnshift a v) Any := by
  refine withVar_frame fun _ _ => .bind (RO.frame (obj_ro a)) fun _ _ => .bind (heapResize_frame _ ha) fun _ _ =>
    .bind (RO.frame (obj_ro a)) fun o _ => ?_
  split
  · unfold unshiftVars
    split
    · exact .undef
    · exact .bind (setObj_frame _ ha) fun _ _ => .bind (attachV_frame v) fun _ _ => assignPlain_frame v ha
  · split
    · exact .throwE
    · unfold unshiftNums
      split
      · exact .undef
      split
      · exact .undef
      · exact .bind (setObj_frame _ ha) fun _ _ => .bind (RO.frame (getV_ro _ v)) fun x _ => setRaw_frame 0 x ha

theorem unshift_frame [Env α] {l : Loc} (v : V α) (hl : f.Okay l) : f.H (unshift l v) Any := by
  refine withVar_frame fun _ _ => .bind (okay_read hl) fun t ht => .bind definedV_frame fun b hb => ?_
  have tail : f.H (readLoc l >>= fun w => heapOf w >>= fun x => match x with
      | some a => attachV v >>= fun _ => heapUnshift a v
      | none => undef .nullDeref : M α Unit) Any :=
    .bind (okay_read hl) fun w hw => .bind (heapOf_frame (Arr.of hw)) fun x hx => by
      cases x with
      | none => exact .undef
      | some a => exact .bind (attachV_frame v) fun _ _ => heapUnshift_frame v (hx a rfl)
  have rest : f.H (heapOf t >>= fun x => match x with
      | some _ => pure () >>= fun _ => readLoc l >>= fun w => heapOf w >>= fun x => match x with
        | some a => attachV v >>= fun _ => heapUnshift a v
        | none => undef .nullDeref
      | none => array l >>= fun _ => readLoc l >>= fun w => heapOf w >>= fun x => match x with
        | some a => attachV v >>= fun _ => heapUnshift a v
        | none => undef .nullDeref : M α Unit) Any :=
    .bind (RO.frame (heapOf_ro t)) fun x _ => by
      cases x with
      | some a => exact .bind (.pure (Q := Any) trivial) fun _ _ => tail
      | none => exact .bind (array_frame hl) fun _ _ => tail
  rcases ht with ht | ⟨hf, hn⟩
  · rw [hb ht]
    exact rest
  · cases b with
    | false => exact .bind (attachV_frame v) fun _ _ => assign_free v hf hn
    | true => exact rest

theorem makeMap_frame [Env α] {r : Loc} (hl : f.Okay r) : f.H (makeMap r) Any := by
  refine .bind (okay_read hl) fun t ht => ?_
  rcases ht with ⟨a, rfl, ha⟩ | ⟨hf, hn⟩
  · exact .pure trivial
  · cases t with
    | nil => exact .bind (newHeap_frame 0 _) fun b _ => writeLoc_frame _ hf
    | _ => exact .pure trivial

theorem mapIndex_frame [Env α] {l : Loc} (v : V α) (hn : f.NoF) (hl : f.Okay l) : f.H (mapIndex l v) Any := by
  refine withVar_frame fun _ _ => .bind (okay_deref hl) fun r hr => .bind (makeMap_frame hr) fun _ _ =>
    .bind (RO.frame (readLoc_ro r)) fun t _ => ?_
  cases t with
  | arr a =>
    refine .bind (RO.frame (obj_ro a)) fun o _ => ?_
    split
    · exact .undef
    · refine .bind (RO.frame (searchKeys_ro _ _ _ _ _)) fun p _ => .bind (RO.frame (keyFound_ro _ _ _)) fun b _ => ?_
      split
      · exact .bind (RO.frame (readLoc_ro r)) fun t _ => (reference_frame t _).any
      · exact .bind (attachV_frame v) fun _ _ => .bind (insert_frame hn hr v p) fun _ _ =>
          .bind (RO.frame (readLoc_ro r)) fun t _ => (reference_frame t _).any
  | _ => exact .undef

theorem mapAt_frame [Env α] (t v : V α) : f.H (mapAt t v) Any := by
  refine .bind (RO.frame (definedV_ro t)) fun b _ => ?_
  split
  · exact .throwE
  · refine .bind (RO.frame (heapOf_ro t)) fun a? _ => ?_
    cases a? with
    | none => exact .undef
    | some a =>
      refine .bind (RO.frame (obj_ro a)) fun o _ => ?_
      split
      · exact .throwE
      · refine .bind (RO.frame (searchKeys_ro _ _ _ _ _)) fun p _ => .bind (RO.frame (keyFound_ro _ _ _)) fun b _ => ?_
        split
        · exact (reference_frame t _).any
        · exact .pure trivial

theorem newStr_frame [Env α] (cs : List α) : f.H (newStr cs) Any :=
  .bind (RO.frame (liftO_ro _)) fun _ _ => .bind (pushObj_frame _) fun _ _ => .pure trivial

theorem newNum_frame [Env α] (k : Kind) (x : α) : f.H (newNum k x) Any := by
  unfold newNum
  split
  · exact .undef
  · exact boxed_frame k x

/-! ## Functors -/

theorem broadcast_frame [Env α] {sc : V α → Loc → M α Unit} (h : ∀ v l, f.Free l → f.H (sc v l) Any) (v : V α) (lo : Loc) (n : Nat) : ∀ i, f.H (broadcast sc v lo i n) Any := by
  induction n with
  | zero => exact fun i => .pure trivial
  | succ n ih =>
    exact fun i => .bind (RO.frame (readLoc_ro _)) fun o _ => .bind (at'_any o i) fun r _ =>
      .bind (withVar_frame fun lr hlr => .bind (at'_any v i) fun t _ => withVar_frame fun _ _ => h t _ hlr) fun _ _ => ih (i + 1)

theorem scalar_frame [Env α] (hn : f.NoF) (F : Fn α) (d : Nat) : ∀ (v : V α) (lo : Loc), f.Free lo → f.H (scalar F d v lo) Any := by
  induction d with
  | zero => exact fun v lo _ s _ => trivial
  | succ d ih =>
    intro v lo hl
    unfold scalar
    refine .bind (RO.frame (mathType_ro v)) fun t _ => ?_
    cases t with
    | none => exact .bind (attachV_frame v) fun _ _ => withVar_frame fun _ _ => .bind (RO.frame (sizeV_ro v)) fun n _ => broadcast_frame ih v lo n 0
    | some k =>
      simp only
      split
      · exact .bind (RO.frame (getV_ro k v)) fun x _ => .bind (newNum_frame _ _) fun r _ => assign_free r hl hn
      · exact .throwE

theorem setChar_frame (hn : f.NoF) {lo : Loc} (hl : f.Free lo) (i : Nat) (x : α) : f.H (setChar lo i x) Any := by
  refine .bind (RO.frame (readLoc_ro _)) fun v _ => ?_
  split
  · exact setRaw_frame _ _ (hn _)
  · split
    · exact writeLoc_frame _ hl
    · exact .undef
  · rename_i b j _
    refine .bind (RO.frameQ (derefLoc_ro b j) (Q := fun r? => ∀ r, r? = some r → f.Free r) fun s r _ hr => ?_) fun r? hr => ?_
    · unfold derefLoc at hr
      obtain ⟨o, s1, ho, hr⟩ := bind_ok hr
      revert hr
      cases o.kind <;> intro hr <;> cases hr <;> rintro _ ⟨⟩ <;> exact hn b
    · cases r? with
      | none => exact setRaw_frame _ _ (hn _)
      | some r =>
        refine .bind (RO.frame (readLoc_ro _)) fun v _ => ?_
        split
        · exact setRaw_frame _ _ (hn _)
        · split
          · exact writeLoc_frame _ (hr r rfl)
          · exact .undef
        · exact .undef
  · exact .undef

theorem mapChars_frame (hn : f.NoF) (g : α → α) (v : V α) {lo : Loc} (hl : f.Free lo) (n : Nat) : ∀ i, f.H (mapChars g v lo i n) Any := by
  induction n with
  | zero => exact fun i => .pure trivial
  | succ n ih => exact fun i => .bind (RO.frame (charAt_ro v i)) fun x _ => .bind (setChar_frame hn hl i _) fun _ _ => ih (i + 1)

theorem putMatches_frame [Env α] (hn : f.NoF) (a : Option Addr) {lo : Loc} (hl : f.Free lo) (ms : List (Nat × Nat)) : ∀ i, f.H (putMatches a lo i ms : M α Unit) Any := by
  induction ms with
  | nil => exact fun i => .pure trivial
  | cons m ms ih =>
    exact fun i => .bind (RO.frame (matched_ro a _ _)) fun xs _ => .bind (newStr_frame xs) fun r _ => .bind (setIndex_frame i r (.inr ⟨hl, hn⟩)) fun _ _ => ih (i + 1)

theorem moveChars_frame (hn : f.NoF) (a : Addr) (j d n : Nat) : ∀ i, f.H (moveChars a j d i n : M α Unit) Any := by
  induction n with
  | zero => exact fun i => .pure trivial
  | succ n ih => exact fun i => .bind (RO.frame (rawAt_ro a _)) fun x _ => .bind (setRaw_frame _ x (hn a)) fun _ _ => ih (i + 1)

theorem copyChars_frame (hn : f.NoF) (v : V α) (op : Option (Addr × Nat)) (d n : Nat) : ∀ i, f.H (copyChars v op d i n) Any := by
  induction n with
  | zero => exact fun i => .pure trivial
  | succ n ih =>
    refine fun i => .bind (RO.frame (charAt_ro v _)) fun x _ => ?_
    rcases op with _ | ⟨a, j⟩
    · exact .undef
    · exact .bind (setRaw_frame _ x (hn a)) fun _ _ => ih (i + 1)

theorem StrOp.fn_frame [Env α] (hn : f.NoF) (S : StrOp α) (same : Bool) (v : V α) {lo : Loc} (hl : f.Free lo) : f.H (S.fn same v lo) Any := by
  cases S with
  | case g =>
    refine .bind (RO.frame (isSame_ro same v lo)) fun b _ => ?_
    split
    · exact .bind (RO.frame (sizeV_ro v)) fun n _ => mapChars_frame hn g v hl n 0
    · exact .bind (newStr_frame []) fun e _ => .bind (assign_free e hl hn) fun _ _ => .bind (RO.frame (sizeV_ro v)) fun n _ =>
        .bind (resize_frame _ (.inr ⟨hl, hn⟩)) fun _ _ => .bind (RO.frame (sizeV_ro v)) fun n _ => mapChars_frame hn g v hl n 0
  | find re =>
    refine .bind (RO.frame (heapOf_ro v)) fun a _ => .bind (RO.frame (textV_ro v)) fun s _ => .bind (assign_free .nil hl hn) fun _ _ => ?_
    split
    · exact .pure trivial
    · exact putMatches_frame hn a hl _ 0
  | replace re => exact .bind (RO.frame (textV_ro v)) fun s _ => .bind (newStr_frame _) fun r _ => assign_free r hl hn
  | strip sp =>
    refine .bind (RO.frame (readLoc_ro _)) fun o _ => .bind (RO.frame (charPtr_ro o)) fun op _ => .bind (RO.frame (sizeV_ro v)) fun n _ =>
      .bind (RO.frame (leading_ro sp v n 0)) fun l _ => .bind (RO.frame (trailing_ro sp v n 0)) fun t _ => .bind (RO.frame (isSame_ro same v lo)) fun b _ => ?_
    split
    · refine .bind (Q := Any) ?_ fun _ _ => .bind (RO.frame (readLoc_ro _)) fun o _ => .bind (RO.frame (sizeV_ro o)) fun k _ => ?_
      · unfold stripMove
        split
        · exact .pure trivial
        · split
          · exact .undef
          · rcases op with _ | ⟨a, j⟩
            · exact .undef
            · exact moveChars_frame hn a j l _ 0
      · split
        · exact resize_frame _ (.inr ⟨hl, hn⟩)
        · exact .pure trivial
    · exact .bind (newStr_frame []) fun e _ => .bind (assign_free e hl hn) fun _ _ => .bind (resize_frame _ (.inr ⟨hl, hn⟩)) fun _ _ => copyChars_frame hn v op l _ 0

theorem strCall_frame [Env α] (hn : f.NoF) (S : StrOp α) (d : Nat) : ∀ (same : Bool) (v : V α) (lo : Loc), f.Free lo → f.H (strCall S.fn d same v lo) Any := by
  induction d with
  | zero => exact fun same v lo _ s _ => trivial
  | succ d ih =>
    intro same v lo hl
    unfold strCall
    refine .bind (RO.frame (atypeV_ro v)) fun k _ => ?_
    split
    · exact S.fn_frame hn same v hl
    · exact .bind (attachV_frame v) fun _ _ => withVar_frame fun _ _ => .bind (RO.frame (sizeV_ro v)) fun n _ => broadcast_frame (ih false) v lo n 0

/-- The rest of a call that makes a new var. -/
theorem into_frame [Env α] (hn : f.NoF) {g : Loc → M α Unit} (h : ∀ l, f.Free l → f.H (g l) Any) (r : V α) :
    f.H (withVar .nil fun lr => do
      assign lr r
      g lr
      copyV (← readLoc lr)) Any :=
  withVar_frame fun lr hlr => .bind (assign_free r hlr hn) fun _ _ => .bind (h _ hlr) fun _ _ => .bind (RO.frame (readLoc_ro _)) fun w _ => (copyV_frame w).any

theorem setTyped_frame (hn : f.NoF) (k : Kind) (b : Addr) (i : Nat) (x : α) : f.H (setTyped k b i x) Any := by
  refine .bind (RO.frame (obj_ro b)) fun o _ => ?_
  split
  · exact setRaw_frame _ _ (hn _)
  · exact .undef

theorem setPlain_frame (hn : f.NoF) (k : Kind) {l : Loc} (hl : f.Free l) (i : Nat) (x : α) : f.H (setPlain k l i x) Any := by
  refine .bind (RO.frame (readLoc_ro _)) fun v _ => ?_
  split
  · exact setTyped_frame hn _ _ _ _
  · split
    · exact writeLoc_frame _ hl
    · exact .undef
  · exact .undef

theorem setPtr_frame (hn : f.NoF) (k : Kind) {lo : Loc} (hl : f.Free lo) (i : Nat) (x : α) : f.H (setPtr k lo i x) Any := by
  refine .bind (RO.frame (readLoc_ro _)) fun v _ => ?_
  split
  · rename_i b j _
    refine .bind (RO.frameQ (derefLoc_ro b j) (Q := fun r? => ∀ r, r? = some r → f.Free r) fun s r _ hr => ?_) fun r? hr => ?_
    · unfold derefLoc at hr
      obtain ⟨o, s1, ho, hr⟩ := bind_ok hr
      revert hr
      cases o.kind <;> intro hr <;> cases hr <;> rintro _ ⟨⟩ <;> exact hn b
    · cases r? with
      | none => exact setTyped_frame hn _ _ _ _
      | some r => exact setPlain_frame hn k (hr r rfl) i x
  · exact setPlain_frame hn k hl i x

theorem scaleLoop_frame (hn : f.NoF) (F : Bin α) (k : Kind) (v : V α) (y : α) {lo : Loc} (hl : f.Free lo) (n : Nat) : ∀ j, f.H (scaleLoop F k v y lo j n) Any := by
  induction n with
  | zero => exact fun j => .pure trivial
  | succ n ih =>
    exact fun j => .bind (RO.frame (elemAt_ro v j)) fun x _ => .bind (RO.frame (F.apply_ro k x y)) fun z _ => .bind (setPtr_frame hn k hl j z) fun _ _ => ih (j + 1)

theorem vecLoop_frame (hn : f.NoF) (F : Bin α) (k : Kind) (v w : V α) {lo : Loc} (hl : f.Free lo) (n : Nat) : ∀ j, f.H (vecLoop F k v w lo j n) Any := by
  induction n with
  | zero => exact fun j => .pure trivial
  | succ n ih =>
    exact fun j => .bind (RO.frame (elemAt_ro w j)) fun y _ => .bind (RO.frame (elemAt_ro v j)) fun x _ => .bind (RO.frame (F.apply_ro k x y)) fun z _ =>
      .bind (setPtr_frame hn k hl j z) fun _ _ => ih (j + 1)

theorem arithArr_frame [Env α] (hn : f.NoF) (F : Bin α) {sc : V α → Loc → M α Unit} (h : ∀ v l, f.Free l → f.H (sc v l) Any) (v w : V α) {lv lw lo : Loc} (h1 : f.Free lv) (h2 : f.Free lw)
    (h3 : f.Free lo) : f.H (arithArr F sc v w lv lw lo) Any := by
  refine .bind (RO.frame (sizeV_ro w)) fun m _ => ?_
  split
  · split
    · refine .bind (RO.frame (sizeV_ro v)) fun n _ => .bind (RO.frame (atypeV_ro v)) fun k _ => ?_
      split
      · exact .bind (RO.frame (castV_ro k w)) fun y _ => scaleLoop_frame hn F k v y h3 n 0
      · exact .throwE
    · exact .bind (RO.frame (sizeV_ro v)) fun n _ => broadcast_frame h v lo n 0
  · refine .bind (RO.frame (atypeV_ro v)) fun k _ => .bind (RO.frame (atypeV_ro w)) fun j _ => ?_
    split
    · exact .throwE
    · refine .bind (RO.frame (sizeV_ro v)) fun n _ => ?_
      split
      · exact .undef
      · unfold vectorArr
        split
        · exact .bind (index_frame 0 (.inr ⟨h1, hn⟩)) fun _ _ => withVar_frame fun _ _ => .bind (index_frame 0 (.inr ⟨h2, hn⟩)) fun _ _ => withVar_frame fun _ _ =>
            .bind (index_frame 0 (.inr ⟨h3, hn⟩)) fun _ _ => withVar_frame fun _ _ => .throwE
        · refine .bind (RO.frame (isSame_ro _ _ _)) fun b _ => ?_
          split
          · exact fun s _ => trivial
          · refine .bind (RO.frame (sizeV_ro w)) fun n _ => ?_
            split
            · exact vecLoop_frame hn F k v w h3 n 0
            · exact .throwE

theorem arith_frame [Env α] (hn : f.NoF) (F : Bin α) (d : Nat) : ∀ (v w : V α) (lo : Loc), f.Free lo → f.H (arith F d v w lo) Any := by
  induction d with
  | zero => exact fun v w lo _ s _ => trivial
  | succ d ih =>
    intro v w lo hl
    unfold arith
    refine .bind (RO.frame (mathType_ro v)) fun t _ => ?_
    cases t with
    | none =>
      exact .bind (attachV_frame v) fun _ _ => withVar_frame fun lv h1 => .bind (attachV_frame w) fun _ _ => withVar_frame fun lw h2 =>
        arithArr_frame hn F (fun t l h => ih t w l h) v w h1 h2 hl
    | some k =>
      simp only
      split
      · refine .bind (RO.frame (getV_ro k v)) fun x _ => .bind (RO.frame (castV_ro k w)) fun y _ => .bind (RO.frame (F.apply_ro k x y)) fun z _ => ?_
        unfold Bin.store
        split
        · exact .bind (newNum_frame _ _) fun r _ => assign_free r hl hn
        · exact setPtr_frame hn k hl 0 z
      · exact .throwE

theorem eval_frame [Env α] (hn : f.NoF) (ho : ∀ n, f.Okay (.slot n)) (e : Exp α) (hw : ∀ n, Writes n e → f.Free (.slot n)) : f.H (eval e) Any := by
  induction e with
  | nil => exact .pure trivial
  | num k x => exact newNum_frame k x
  | str cs => exact newStr_frame cs
  | name n => exact .bind (RO.frame (readLoc_ro _)) fun v _ => (copyV_frame v).any
  | elem n i => exact (index_frame i (ho n)).any
  | «at» n i => exact .bind (RO.frame (readLoc_ro _)) fun v _ => at'_any v i
  | top n => exact .bind (RO.frame (readLoc_ro _)) fun v _ => .bind (RO.frame (sizeV_ro _)) fun _ _ => at'_any v _
  | key n k ih => exact .bind (ih hw) fun v _ => mapIndex_frame v hn (ho n)
  | atKey n k ih => exact .bind (ih hw) fun v _ => withVar_frame fun _ _ => .bind (RO.frame (readLoc_ro _)) fun t _ => mapAt_frame t v
  | copy n => exact .bind (RO.frame (readLoc_ro _)) fun v _ => copy_frame v
  | pop n => exact pop_frame (ho n)
  | shift n => exact shift_frame (ho n)
  | remove n i => exact remove_frame (ho n) i
  | math F d n =>
    refine .bind (RO.frame (readLoc_ro _)) fun v _ => .bind (RO.frame (heapOf_ro v)) fun x _ => ?_
    cases x with
    | none => exact .bind (copyV_frame v) fun r _ => into_frame hn (fun l hl => scalar_frame hn F d v l hl) r
    | some a => exact .bind (RO.frame (obj_ro a)) fun o _ => .bind (newHeap_frame _ _) fun b _ => into_frame hn (fun l hl => scalar_frame hn F d v l hl) (.arr b)
  | mathTo F d n m => exact .bind (RO.frame (readLoc_ro _)) fun v _ => .bind (scalar_frame hn F d v _ (hw m rfl)) fun _ _ => .bind (RO.frame (readLoc_ro _)) fun w _ => (copyV_frame w).any
  | text S d n =>
    refine .bind (RO.frame (readLoc_ro _)) fun v _ => .bind (RO.frame (heapOf_ro v)) fun x _ => ?_
    cases x with
    | none => exact .bind (copyV_frame v) fun r _ => into_frame hn (fun l hl => strCall_frame hn S d false v l hl) r
    | some a => exact .bind (RO.frame (obj_ro a)) fun o _ => .bind (newHeap_frame _ _) fun b _ => into_frame hn (fun l hl => strCall_frame hn S d false v l hl) (.arr b)
  | textTo S d n m => exact .bind (RO.frame (readLoc_ro _)) fun v _ => .bind (strCall_frame hn S d _ v _ (hw m rfl)) fun _ _ => .bind (RO.frame (readLoc_ro _)) fun w _ => (copyV_frame w).any
  | arith F d n e ih =>
    refine .bind (ih hw) fun w _ => withVar_frame fun _ _ => .bind (RO.frame (readLoc_ro _)) fun v _ => .bind (RO.frame (heapOf_ro v)) fun x _ => ?_
    cases x with
    | none => exact .bind (copyV_frame v) fun r _ => into_frame hn (fun l hl => arith_frame hn F d v w l hl) r
    | some a => exact .bind (RO.frame (obj_ro a)) fun o _ => .bind (newHeap_frame _ _) fun b _ => into_frame hn (fun l hl => arith_frame hn F d v w l hl) (.arr b)
  | arithTo F d n e m ih =>
    exact .bind (ih fun n h => hw n (.inr h)) fun w _ => withVar_frame fun _ _ => .bind (RO.frame (readLoc_ro _)) fun v _ => .bind (arith_frame hn F d v w _ (hw m (.inl rfl))) fun _ _ =>
      .bind (RO.frame (readLoc_ro _)) fun w _ => (copyV_frame w).any
  | move n => exact .bind (RO.frame (readLoc_ro _)) fun _ _ => .bind (writeLoc_frame _ (hw n rfl)) fun _ _ => .pure trivial

end Libube.Mem

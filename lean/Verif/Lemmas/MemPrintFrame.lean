import Verif.Lemmas.MemCallFrame

/-! # Printing leaves all arrays alone -/

namespace Libube.Mem

variable {α β : Type} {f : Fr α}

/-- Every array there was is to stay as it is. -/
def Fr.Whole (f : Fr α) : Prop := ∀ b, b < f.s0.mem.length → f.F b

/-- The same variables, and all arrays of a state. -/
def Fr.from (f : Fr α) (s : State α) : Fr α := ⟨f.L, fun b => b < s.mem.length, s⟩

theorem Fr.from_whole (s : State α) : (f.from s).Whole := fun _ h => h

theorem Fr.from_inv {s : State α} (h : f.Inv s) : (f.from s).Inv s := ⟨h.1, le_refl _, fun _ hb => ⟨hb, fun o ho => ⟨o, ho, rfl, rfl, rfl⟩⟩⟩

theorem Fr.from_trans {s t : State α} (h : f.Inv s) (ht : (f.from s).Inv t) : f.Inv t := by
  refine ⟨ht.1, le_trans h.2.1 ht.2.1, fun b hb => ?_⟩
  obtain ⟨h1, h2⟩ := h.2.2 b hb
  refine ⟨h1, fun o ho => ?_⟩
  obtain ⟨o1, g1, g2, g3, g4⟩ := (ht.2.2 b (lt_of_lt_of_le h1 h.2.1)).2 o ho
  obtain ⟨o2, e1, e2, e3, e4⟩ := h2 o1 g1
  exact ⟨o2, e1, g2.trans e2, g3.trans e3, g4.trans e4⟩

/-- It is enough to keep everything of the state the call begins in. -/
theorem Fr.rebase {s : State α} (h : f.Inv s) {r : R α β} {Q : β → Prop} (hr : (f.from s).Post r Q) : f.Post r Q := by
  cases r with
  | ok b t => exact ⟨f.from_trans h hr.1, hr.2⟩
  | thrown e t => exact f.from_trans h hr
  | _ => trivial

theorem Fr.Whole.track (hw : f.Whole) (n : Nat) (v : V α) : (f.track n v).Whole := hw

theorem Fr.Whole.same (hw : f.Whole) {s : State α} (h : f.Inv s) {a : Addr} {o o0 : Obj α} (ho : s.mem[a]? = some (some o)) (h0 : f.s0.mem[a]? = some (some o0)) :
    o.kind = o0.kind ∧ o.size = o0.size ∧ o.cells = o0.cells := by
  obtain ⟨o1, g1, g2⟩ := (h.2.2 a (hw a (List.getElem?_eq_some_iff.1 h0).1)).2 o ho
  rw [h0] at g1
  cases g1
  exact g2

theorem obj_kept (hw : f.Whole) {a : Addr} {o0 : Obj α} (h0 : f.s0.mem[a]? = some (some o0)) :
    f.H (obj a) (fun o => o.kind = o0.kind ∧ o.size = o0.size ∧ o.cells = o0.cells) :=
  RO.frameQ (obj_ro a) fun _ _ hs hb => hw.same hs (obj_ok hb).2 h0

theorem size_kept (hw : f.Whole) {a : Addr} {o0 : Obj α} (h0 : f.s0.mem[a]? = some (some o0)) : f.H (sizeV (.arr a)) (· = o0.size) :=
  .bind (Q := (· = .arr a)) (.pure rfl) fun w hw' => by
    subst hw'
    exact .bind (obj_kept hw h0) fun o ho => .pure ho.2.1

/-- What a reference to an element that is an array says about the state. -/
theorem deref_ref {b j a : Nat} {s s' : State α} (h : derefV (.ref b j) s = .ok (.arr a) s') :
    ∃ o c, s.mem[b]? = some (some o) ∧ (o.kind = .var ∨ o.kind = .pair) ∧ o.cells[j]? = some c ∧ (c = .var (.arr a) ∨ ∃ k, c = .pair k (.arr a)) := by
  unfold derefV at h
  obtain ⟨l?, s1, h1, h2⟩ := bind_ok h
  unfold derefLoc at h1
  obtain ⟨o, s2, h3, h4⟩ := bind_ok h1
  obtain ⟨rfl, h5⟩ := obj_ok h3
  have key : l? = some (.cell b j) → s1 = s2 → ∃ c, o.cells[j]? = some c ∧ (c = .var (.arr a) ∨ ∃ k, c = .pair k (.arr a)) := by
    rintro rfl rfl
    simp only at h2
    obtain ⟨w, s3, h6, h7⟩ := bind_ok h2
    unfold readLoc at h6
    obtain ⟨p, s4, h8, h9⟩ := bind_ok h6
    obtain ⟨rfl, h10⟩ := obj_ok h8
    rw [h5] at h10
    cases h10
    cases hc : o.cells[j]? with
    | none => rw [hc] at h9; cases h9
    | some c =>
      rw [hc] at h9
      refine ⟨c, rfl, ?_⟩
      cases c with
      | raw x => cases h9
      | var v =>
        cases h9
        cases w <;> cases h7
        exact .inl rfl
      | pair k v =>
        cases h9
        cases w <;> cases h7
        exact .inr ⟨k, rfl⟩
  revert h4
  cases hk : o.kind <;> intro h4 <;> cases h4
  all_goals first
    | (cases h2; done)
    | (obtain ⟨c, g1, g2⟩ := key rfl rfl; exact ⟨o, c, h5, by simp [hk], g1, g2⟩)

theorem cell_kept (hw : f.Whole) {b j a : Nat} {o0 : Obj α} {c : Cell α} (h0 : f.s0.mem[b]? = some (some o0)) (hc : o0.cells[j]? = some c)
    (hca : c = .var (.arr a) ∨ ∃ k, c = .pair k (.arr a)) : f.H (readLoc (.cell b j)) (· = .arr a) := by
  unfold readLoc
  refine .bind (obj_kept hw h0) fun o ho => ?_
  rw [ho.2.2, hc]
  rcases hca with rfl | ⟨k, rfl⟩
  · exact .pure rfl
  · exact .pure rfl

theorem indexPlain_within [Env α] (hw : f.Whole) {l : Loc} {a : Addr} {o0 : Obj α} (hl : f.H (readLoc l) (· = .arr a)) (h0 : f.s0.mem[a]? = some (some o0))
    {i : Nat} (hi : i < o0.size) : f.H (indexPlain l i) Any := by
  have hd : f.H (dereference l) (· = l) := by
    refine .bind hl fun v hv => ?_
    subst hv
    exact .pure rfl
  unfold indexPlain
  rw [if_neg (show ¬ ((i : Int) < 0) by omega)]
  refine .bind hl fun v hv => ?_
  subst hv
  refine .bind (size_kept hw h0) fun m hm => ?_
  subst hm
  rw [if_neg (show ¬ ((i : Int) ≥ (o0.size : Int)) by omega)]
  refine .bind (Q := Any) ?_ fun _ _ => .bind (RO.frame (readLoc_ro l)) fun w _ => (reference_frame _ _).any
  unfold array
  refine .bind hd fun r hr => ?_
  subst hr
  refine .bind hl fun v hv => ?_
  subst hv
  exact .pure trivial

theorem index_within [Env α] (hw : f.Whole) {n : Nat} {v : V α} {a : Addr} {o0 : Obj α} {s1 : State α} (hL : f.L n v) (hd : derefV v f.s0 = .ok (.arr a) s1)
    (h0 : f.s0.mem[a]? = some (some o0)) {i : Nat} (hi : i < o0.size) : f.H (index (.slot n) i) Any := by
  unfold index
  refine .bind (readSlot_frame hL) fun v' hv => ?_
  subst hv
  cases v' with
  | ref b j =>
    obtain ⟨o, c, h1, h2, h3, h4⟩ := deref_ref hd
    simp only
    rw [if_neg (show ¬ ((i : Int) < 0) by omega)]
    refine .bind (Q := (· = some (.cell b j))) ?_ fun r hr => ?_
    · unfold derefLoc
      refine .bind (obj_kept hw h1) fun p hp => ?_
      rcases h2 with h2 | h2 <;> rw [hp.1, h2] <;> exact .pure rfl
    · subst hr
      simp only
      have hc := cell_kept hw h1 h3 h4
      refine .bind hc fun w hw' => ?_
      subst hw'
      exact indexPlain_within hw hc h0 hi
  | arr b =>
    cases hd
    exact indexPlain_within hw (readSlot_frame hL) h0 hi
  | nil => cases hd
  | bad k => cases hd
  | num k x => cases hd

theorem putLoop_frame' {g : Nat → M α CString.Bytes} (n : Nat) : ∀ i, (∀ j, j < i + n → f.H (g j) Any) → f.H (putLoop g i n) Any := by
  induction n with
  | zero => exact fun i _ => .pure trivial
  | succ n ih => exact fun i h => .bind (h i (by omega)) fun _ _ => .bind (ih _ fun j hj => h j (by omega)) fun _ _ => .pure trivial

theorem deref_kept (hw : f.Whole) {v : V α} {a : Addr} {s1 : State α} (hd : derefV v f.s0 = .ok (.arr a) s1) : f.H (derefV v) (· = .arr a) := by
  cases v with
  | ref b j =>
    obtain ⟨o, c, h1, h2, h3, h4⟩ := deref_ref hd
    unfold derefV
    refine .bind (Q := (· = some (.cell b j))) ?_ fun r hr => ?_
    · unfold derefLoc
      refine .bind (obj_kept hw h1) fun p hp => ?_
      rcases h2 with h2 | h2 <;> rw [hp.1, h2] <;> exact .pure rfl
    · subst hr
      refine .bind (cell_kept hw h1 h3 h4) fun w hw' => ?_
      subst hw'
      exact .pure rfl
  | arr b => cases hd; exact .pure rfl
  | nil => cases hd
  | bad k => cases hd
  | num k x => cases hd

/-- Printing an array keeps everything there is. -/
theorem formatArray_within [Env α] [DecidableEq α] (hw : f.Whole) (p : Printer α) {g : Nat → Loc → M α CString.Bytes}
    (h : ∀ i l, f.Free l → f.H (g i l) Any) (ind : Nat) {n : Nat} {v : V α} {a : Addr} {o0 : Obj α} {s1 : State α} (hL : f.L n v)
    (hd : derefV v f.s0 = .ok (.arr a) s1) (h0 : f.s0.mem[a]? = some (some o0)) : f.H (formatArray p g ind (.slot n)) Any := by
  have hp : ∀ v, f.H (putVar (g 0) v) Any := putVar_frame (h 0)
  have hv : ∀ v k, f.H (withVar v (g k)) Any := fun v k => withVar_frame fun _ hl => h _ _ hl
  have hx : ∀ i : Nat, i < o0.size → f.H (index (.slot n) i) Any := fun i hi => index_within hw hL hd h0 hi
  have hsz : f.H (sizeV v) (· = o0.size) := by
    unfold sizeV
    refine .bind (deref_kept hw hd) fun w hw' => ?_
    subst hw'
    exact .bind (obj_kept hw h0) fun o ho => .pure ho.2.1
  unfold formatArray
  refine .bind (readSlot_frame hL) fun v' hv' => ?_
  subst hv'
  refine .bind (RO.frame (atypeV_ro v')) fun k _ => ?_
  split
  · refine .bind (RO.frame (charPtr_ro v')) fun x _ => ?_
    repeat' first | exact putChars_frame p _ _ _ | fr1
  · refine .bind hsz fun m hm => .bind (putLoop_frame' _ _ (fun i hi => ?_)) fun _ _ => .pure trivial
    have hi' : i < o0.size := by omega
    repeat' first | exact keyAt_frame _ _ | exact hp _ | exact hx _ hi' | exact hv _ _ | fr1
  · refine .bind hsz fun m hm => .bind (putLoop_frame' _ _ (fun i hi => ?_)) fun _ _ => .pure trivial
    have hi' : i < o0.size := by omega
    repeat' first | exact hx _ hi' | exact hv _ _ | fr1
  · refine .bind (RO.frame (charPtr_ro v')) fun x _ => ?_
    repeat' first | exact putLoop_frame (fun i => .pure trivial) _ _ | fr1
  · refine .bind (RO.frame (sizeV_ro v')) fun n _ => .bind (putLoop_frame (fun i => ?_) _ _) fun _ _ => .pure trivial
    repeat' first | exact hp _ | fr1

theorem Fr.bindAt {γ : Type} {m : M α β} {k : β → M α γ} {Q : β → Prop} {Q' : γ → Prop} {s : State α} (h : f.Post (m s) Q)
    (hk : ∀ b, Q b → f.H (k b) Q') : f.Post ((m >>= k) s) Q' := Fr.Post.bind h hk

theorem Fr.untrack {n : Nat} {v : V α} {r : R α β} {Q : β → Prop} (h : (f.track n v).Post r Q) : f.Post r Q := by
  cases r with
  | ok b t => exact ⟨⟨fun m w hm => h.1.1 m w (.inl hm), h.1.2⟩, h.2⟩
  | thrown e t => exact ⟨fun m w hm => h.1 m w (.inl hm), h.2⟩
  | _ => trivial

theorem heapOf_deref {v : V α} {s s' : State α} {a : Addr} (h : heapOf v s = .ok (some a) s') : s' = s ∧ derefV v s = .ok (.arr a) s := by
  unfold heapOf at h
  obtain ⟨w, s1, h1, h2⟩ := bind_ok h
  have := derefV_ro v s
  rw [h1] at this
  subst this
  cases w <;> cases h2
  exact ⟨rfl, h1⟩

/-- Printing keeps everything there is. -/
theorem format_within [Env α] [DecidableEq α] (p : Printer α) (n : Nat) : ∀ (f : Fr α) (ind : Nat) (l : Loc), f.H (format p n ind l) Any := by
  induction n with
  | zero => exact fun f ind l _ _ => trivial
  | succ n ih =>
    intro f ind l
    have key : ∀ v, f.H (heapOf v >>= fun x => match x with
        | none => pure [110, 117, 108, 108]
        | some _ => copyV v >>= fun c => withVar c (formatArray p (format p n) ind)) Any := by
      intro v t ht
      refine f.rebase ht ?_
      refine Fr.bindAt (f := f.from t) (Q := fun x => ∀ a, x = some a → derefV v t = .ok (.arr a) t) ?_ fun x hx => ?_
      · have hro := heapOf_ro v t
        cases hh : heapOf v t with
        | ok x t1 =>
          rw [hh] at hro
          subst hro
          exact ⟨f.from_inv ht, fun a ha => (heapOf_deref (ha ▸ hh)).2⟩
        | thrown e t1 =>
          rw [hh] at hro
          subst hro
          exact f.from_inv ht
        | _ => trivial
      · cases x with
        | none => exact Fr.H.pure trivial
        | some a =>
          have hd := hx a rfl
          refine Fr.H.bind (copyV_frame v) fun c hc => ?_
          subst hc
          refine withVar_frame' fun k s2 hk hs2 hv => ?_
          have dead : (f.from t).Post (atypeV c s2) (fun _ => False) → (f.from t).Post (formatArray p (format p n) ind (.slot k) s2) Any := by
            intro h
            unfold formatArray
            rw [bind_eq (readSlot hv)]
            exact Fr.bindAt h fun _ h => absurd h id
          have h1 := deref_kept (f := f.from t) (f.from_whole t) hd s2 hs2
          cases h2 : derefV c s2 with
          | ok w s3 =>
            have hro := derefV_ro c s2
            rw [h2] at h1 hro
            subst hro
            have h3 : w = .arr a := h1.2
            subst h3
            cases h4 : obj a s3 with
            | ok o s4 =>
              obtain ⟨rfl, h5⟩ := obj_ok h4
              have ht2 := (f.from t).track_inv hs2 hv
              refine Fr.untrack (n := k) (v := c) (Fr.rebase ht2 ?_)
              exact formatArray_within (f := ((f.from t).track k c).from _) (Fr.from_whole _) p (fun i l _ => ih _ i l) ind (n := k) (v := c) (Or.inr ⟨rfl, rfl⟩) h2 h5 _ (Fr.from_inv ht2)
            | thrown e s4 => exact absurd h4 (obj_nt _ _ _ _)
            | _ => exact dead (by
                unfold atypeV
                rw [bind_eq h2]
                exact Fr.bindAt (Q := fun _ => False) (by rw [h4]; trivial) fun _ h => absurd h id)
          | thrown e s4 => exact absurd h2 (derefV_nt _ _ _ _)
          | _ => exact dead (Fr.bindAt (Q := fun _ => False) (by rw [h2]; trivial) fun _ h => absurd h id)
    unfold format
    repeat' first | exact key _ | fr1

end Libube.Mem

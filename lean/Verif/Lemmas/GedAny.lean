import Verif.Lemmas.Ged

/-! # Reading any bytes as a GEDCOM file -/

namespace Libube.Ged

open Libube Libube.CString Libube.StringFns Libube.StringSpec Libube.GedSpec

/-- The call returns, with a result that meets `P`, or fails in one of three ways. -/
def Fine {α : Type} (P : α → Prop) : Outcome α → Prop
  | .ok a => P a
  | .thrown e => e = .ioFailure ∨ e = .error "var::at(): uninitialised"
  | .ub r => r = .outOfBounds
  | .abort => False
  | .diverge => False

theorem Fine.bind {α β : Type} {P : α → Prop} {Q : β → Prop} {o : Outcome α} {f : α → Outcome β} (h : Fine P o) (hf : ∀ a, P a → Fine Q (f a)) :
    Fine Q (o >>= f) := by
  cases o with
  | ok a => exact hf a h
  | thrown e => exact h
  | ub r => exact h
  | abort => exact h
  | diverge => exact h

theorem Fine.mono {α : Type} {P Q : α → Prop} {o : Outcome α} (h : Fine P o) (hf : ∀ a, P a → Q a) : Fine Q o := by
  cases o with
  | ok a => exact hf a h
  | thrown e => exact h
  | ub r => exact h
  | abort => exact h
  | diverge => exact h

/-- What decreases. -/
def size (s : St) : Nat := 3 * s.rest.length + s.field.length

/-- No field holds a NUL. -/
def Clean (s : St) : Prop := ∀ f ∈ s.field, (0 : UInt8) ∉ f

/-- Something was read, and nothing else changed. -/
def Step (s s' : St) : Prop := s'.inds = s.inds ∧ s'.fams = s.fams ∧ s'.imap = s.imap ∧ Clean s' ∧ size s' < size s

theorem Step.trans {s t u : St} (h : Step s t) (g : Step t u) : Step s u := by
  obtain ⟨a1, a2, a3, a4, a5⟩ := h
  obtain ⟨b1, b2, b3, b4, b5⟩ := g
  exact ⟨b1.trans a1, b2.trans a2, b3.trans a3, b4, by omega⟩

theorem shift_fine (s : St) (h : Clean s) : Fine (fun p => (0 : UInt8) ∉ p.1 ∧ Step s p.2) (shift s) := by
  obtain ⟨r, f, is, fs, m⟩ := s
  cases f with
  | nil => rfl
  | cons f fs => exact ⟨h f (by simp), rfl, rfl, rfl, fun g hg => h g (by simp [show g ∈ fs from hg]), by simp [size]⟩

theorem cstr_length (s : Bytes) : (cstr s).length ≤ s.length := (List.takeWhile_sublist _).length_le

theorem joined_length (sep : Bytes) (hs : sep ≠ []) (ps : List Bytes) : ps.length ≤ (joined sep ps).length + 1 := by
  cases ps with
  | nil => simp
  | cons p ps =>
    rw [joined_cons, List.length_append]
    have : ps.length ≤ (ps.flatMap fun x => sep ++ x).length := by
      induction ps with
      | nil => simp
      | cons q ps ih =>
        have := List.length_pos_of_ne_nil hs
        simp only [List.flatMap_cons, List.length_append, List.length_cons]
        omega
    simp only [List.length_cons]
    omega

theorem split_any (l : Bytes) : ∃ ps, split (l.length + 1) l [32] 0 = .ok ps ∧ ps.length ≤ l.length + 1 ∧ ∀ p ∈ ps, (0 : UInt8) ∉ p := by
  have h0 := cstr_no_nul l
  obtain ⟨ps, h1, h2⟩ := split_then_join (cstr l) [32] h0 (by decide) (by decide)
  have hl := cstr_length l
  have h3 : split (l.length + 1) l [32] 0 = .ok ps := by
    have := h1 (l.length + 1) (by omega)
    unfold split at this ⊢
    rwa [cstr_of_no_nul _ h0] at this
  have e : ps = fieldsOf (cstr l) := by
    have := (fieldsOf_spec _ h0).1
    rw [h1 _ (by omega)] at this
    cases this
    rfl
  refine ⟨ps, h3, ?_, ?_⟩
  · rw [join_eq_joined, cstr_of_no_nul _ (by decide)] at h2
    have := joined_length [32] (by simp) ps
    rw [h2] at this
    omega
  · rw [e]
    exact fun p hp => ((fieldsOf_spec _ h0).2.2.2 p hp).2

theorem castInt_chars_fine (f : Bytes) : Fine (fun _ => True) (castInt (.chars f)) := by
  simp only [castInt, castTo]
  cases readNum 32 f with
  | none => exact Or.inl rfl
  | some b => trivial

theorem nextLine_cases (fill : UInt8) (s : St) (h : Clean s) :
    ∃ s', nextLine fill s = .ok s' ∧ s'.inds = s.inds ∧ s'.fams = s.fams ∧ s'.imap = s.imap ∧ Clean s' ∧
      (s' = s ∨ size s' ≤ size s) := by
  obtain ⟨r, f, is, fs, m⟩ := s
  by_cases hr : r = []
  · subst hr
    refine ⟨⟨[], f, is, fs, m⟩, ?_, rfl, rfl, rfl, h, Or.inl rfl⟩
    simp [nextLine, GetLine.getline_end]
  · by_cases h10 : (10 : UInt8) ∈ r
    · obtain ⟨a, b, rfl, ha⟩ := List.append_of_mem h10 |> fun _ => List.eq_append_cons_of_mem h10
      obtain ⟨ps, h1, h2, h3⟩ := split_any a
      refine ⟨⟨b, ps, is, fs, m⟩, ?_, rfl, rfl, rfl, h3, Or.inr ?_⟩
      · simp [nextLine, GetLine.getline_line fill [] a b ha, h1]
      · simp only [size, List.length_append, List.length_cons]
        omega
    · obtain ⟨ps, h1, h2, h3⟩ := split_any (r ++ [0xFF])
      refine ⟨⟨[], ps, is, fs, m⟩, ?_, rfl, rfl, rfl, h3, Or.inr ?_⟩
      · simp only [nextLine, GetLine.getline_last fill [] r h10 hr, Outcome.bind_ok, h1]
      · have := List.length_pos_of_ne_nil hr
        simp only [size, List.length_append, List.length_cons, List.length_nil] at h2 ⊢
        omega

theorem readLine_fine (fill : UInt8) (s : St) (h : Clean s) : Fine (fun p => Step s p.2) (readLine fill s) := by
  obtain ⟨s1, h1, h2, h3, h4, h5, h6⟩ := nextLine_cases fill s h
  unfold readLine
  rw [h1, Outcome.bind_ok]
  refine (shift_fine s1 h5).bind fun p hp => ?_
  refine (castInt_chars_fine p.1).bind fun b _ => ?_
  obtain ⟨-, g1, g2, g3, g4, g5⟩ := hp
  refine ⟨g1.trans h2, g2.trans h3, g3.trans h4, g4, ?_⟩
  show size p.2 < size s
  rcases h6 with rfl | h6 <;> omega

theorem skip_fine (fill : UInt8) (L : Int) (n : Nat) (s : St) (h : Clean s) (hn : size s < n) : Fine (fun p => Step s p.2) (skip fill L n s) := by
  induction n generalizing s with
  | zero => omega
  | succ n ih =>
    rw [skip]
    refine (readLine_fine fill s h).bind fun p hp => ?_
    dsimp only
    split
    · exact (ih p.2 hp.2.2.2.1 (by have := hp.2.2.2.2; omega)).mono fun q hq => hp.trans hq
    · exact hp

theorem birth_fine (fill : UInt8) (L : Int) (n : Nat) (level : Int) (s : St) (h : Clean s) (hn : size s < n) :
    Fine (fun p => Step s p.2) (birth fill L n level s) := by
  induction n generalizing s level with
  | zero => omega
  | succ n ih =>
    rw [birth]
    refine (shift_fine s h).bind fun p hp => ?_
    obtain ⟨t, s1⟩ := p
    obtain ⟨-, h1⟩ := hp
    have hs : size s1 < n := by have := h1.2.2.2.2; simp only at this; omega
    have next : ∀ q : Int × St, Step s1 q.2 → Fine (fun p => Step s p.2) (if q.1 ≥ L then birth fill L n q.1 q.2 else .ok (q.1, q.2)) := by
      intro q hq
      split
      · exact (ih q.1 q.2 hq.2.2.2.1 (by have := hq.2.2.2.2; omega)).mono fun r hr => (h1.trans hq).trans hr
      · exact h1.trans hq
    dsimp only
    cases token t with
    | none => exact h1
    | some k =>
      cases k <;>
        first
        | exact (skip_fine fill level n s1 h1.2.2.2.1 hs).bind next
        | exact (readLine_fine fill s1 h1.2.2.2.1).bind next

/-- What the map of an individual holds. -/
def OkIndi (p : Indi) : Prop := IsText p.name ∧ IsText p.titl ∧ IsText p.sex

theorem indi_fine (fill : UInt8) (L : Int) (n : Nat) (level : Int) (p : Indi) (hp : OkIndi p) (s : St) (h : Clean s) (hn : size s < n) :
    Fine (fun q => OkIndi q.1 ∧ Step s q.2) (indi fill L n level p s) := by
  induction n generalizing s level p with
  | zero => omega
  | succ n ih =>
    rw [indi]
    refine (shift_fine s h).bind fun q hq => ?_
    obtain ⟨t, s1⟩ := q
    obtain ⟨-, h1⟩ := hq
    have hs : size s1 < n := by have := h1.2.2.2.2; simp only at this; omega
    have next : ∀ p, OkIndi p → ∀ q : Int × St, Step s1 q.2 →
        Fine (fun p => OkIndi p.1 ∧ Step s p.2) (if q.1 ≥ L then indi fill L n q.1 p q.2 else .ok (p, q.2)) := by
      intro p hp q hq
      split
      · exact (ih q.1 p hp q.2 hq.2.2.2.1 (by have := hq.2.2.2.2; omega)).mono fun r hr => ⟨hr.1, (h1.trans hq).trans hr.2⟩
      · exact ⟨hp, h1.trans hq⟩
    have ev : Fine (fun q => OkIndi q.1 ∧ Step s q.2) (do
        let (level, s) ← readLine fill s1
        if level > L then do
          let (level, s) ← birth fill level n level s
          if level ≥ L then indi fill L n level p s else .ok (p, s)
        else if level ≥ L then indi fill L n level p s else .ok (p, s)) := by
      refine (readLine_fine fill s1 h1.2.2.2.1).bind fun q hq => ?_
      dsimp only
      split
      · refine (birth_fine fill q.1 n q.1 q.2 hq.2.2.2.1 (by have := hq.2.2.2.2; omega)).bind fun r hr => ?_
        exact next p hp r (hq.trans hr)
      · exact next p hp q hq
    have hj : ∀ x, IsText (Val.chars x) := fun x => Or.inr ⟨x, rfl⟩
    dsimp only
    cases token t with
    | none => exact ⟨hp, h1⟩
    | some k =>
      cases k <;>
        first
        | exact ev
        | exact (skip_fine fill level n s1 h1.2.2.2.1 hs).bind (next p hp)
        | exact (readLine_fine fill s1 h1.2.2.2.1).bind (next _ ⟨hj _, hp.2.1, hp.2.2⟩)
        | exact (readLine_fine fill s1 h1.2.2.2.1).bind (next _ ⟨hp.1, hj _, hp.2.2⟩)
        | exact (readLine_fine fill s1 h1.2.2.2.1).bind (next _ ⟨hp.1, hp.2.1, hj _⟩)
        | exact (readLine_fine fill s1 h1.2.2.2.1).bind (next _ hp)

/-- The position of one of `n` individuals, before `n` is known to be small. -/
def Small (n : Nat) (i : BitVec 32) : Prop := ∃ k, k < n ∧ i = BitVec.ofNat 32 k

/-- The map of individuals. -/
def MapOk (n : Nat) (m : List (Val × Val)) : Prop :=
  Order.WF OrderSpec.IsKey Order.code m ∧ ∀ p ∈ m, ∃ i, p.2 = .int i ∧ Small n i

/-- Nothing or one position. -/
def Link1 (n : Nat) (v : Val) : Prop := v = .nil ∨ ∃ i, v = .int i ∧ Small n i

/-- Positions. -/
def LinkN (n : Nat) (v : Val) : Prop := Link1 n v ∨ ∃ is, v = .ints is ∧ ∀ i ∈ is, Small n i

/-- What the map of a family holds. -/
def OkFam (n : Nat) (p : Fam) : Prop := Link1 n p.husb ∧ Link1 n p.wife ∧ LinkN n p.chil

theorem find_fine (d : Nat) (s : St) (n : Nat) (hm : MapOk n s.imap) (x : Bytes) (hx : (0 : UInt8) ∉ x) : Fine (Link1 n) (find (d + 2) s x) := by
  unfold find
  split
  · exact Or.inr rfl
  · rw [Order.mapAt_spec (Order.isKey_class d) s.imap (.chars x) hx hm.1]
    cases hg : Order.get Order.code s.imap (Order.code (.chars x)) with
    | none => exact Or.inl rfl
    | some v =>
      obtain ⟨p, hp, -, rfl⟩ := Ini.mem_of_get hg
      exact Or.inr (hm.2 p hp)

theorem push_fine (n : Nat) (v : Val) (hv : LinkN n v) (i : BitVec 32) (hi : Small n i) : Fine (LinkN n) (push v (.int i)) := by
  rcases hv with (rfl | ⟨j, rfl, hj⟩) | ⟨js, rfl, hj⟩
  · simp only [push, Val.type]
    exact Or.inl (Or.inr ⟨i, rfl, hi⟩)
  · refine Or.inr ⟨[j, i], rfl, ?_⟩
    simp [hi, hj]
  · simp only [push, castInt_int, Outcome.bind_ok]
    refine Or.inr ⟨js ++ [i], rfl, ?_⟩
    intro k hk
    rcases List.mem_append.1 hk with hk | hk
    · exact hj k hk
    · rw [List.mem_singleton.1 hk]; exact hi

theorem link_fine (d : Nat) (n : Nat) (f : Val → Outcome Fam) (p : Fam) (hp : OkFam n p) (hf : ∀ i, Small n i → Fine (OkFam n) (f (.int i)))
    (s : St) (h : Clean s) (hm : MapOk n s.imap) : Fine (fun q => OkFam n q.1 ∧ Step s q.2) (link (d + 2) f p s) := by
  unfold link
  refine (shift_fine s h).bind fun q hq => ?_
  obtain ⟨h0, h1⟩ := hq
  refine (find_fine d q.2 n (by rw [h1.2.2.1]; exact hm) q.1 h0).bind fun v hv => ?_
  rcases hv with rfl | ⟨i, rfl, hi⟩
  · exact ⟨hp, h1⟩
  · simp only [castInt_int, Outcome.bind_ok]
    exact (hf i hi).bind fun p hp => ⟨hp, h1⟩

theorem fam_fine (fill : UInt8) (d : Nat) (N : Nat) (L : Int) (n : Nat) (level : Int) (p : Fam) (hp : OkFam N p) (s : St) (h : Clean s)
    (hm : MapOk N s.imap) (hn : size s < n) : Fine (fun q => OkFam N q.1 ∧ Step s q.2) (fam fill (d + 2) L n level p s) := by
  induction n generalizing s level p with
  | zero => omega
  | succ n ih =>
    rw [fam]
    refine (shift_fine s h).bind fun q hq => ?_
    obtain ⟨t, s1⟩ := q
    obtain ⟨-, h1⟩ := hq
    have hs : size s1 < n := by have := h1.2.2.2.2; simp only at this; omega
    have hm1 : MapOk N s1.imap := by rw [show s1.imap = s.imap from h1.2.2.1]; exact hm
    have next : ∀ p, OkFam N p → ∀ q : Int × St, Step s1 q.2 →
        Fine (fun p => OkFam N p.1 ∧ Step s p.2) (if q.1 ≥ L then fam fill (d + 2) L n q.1 p q.2 else .ok (p, q.2)) := by
      intro p hp q hq
      split
      · exact (ih q.1 p hp q.2 hq.2.2.2.1 (by rw [hq.2.2.1]; exact hm1) (by have := hq.2.2.2.2; omega)).mono fun r hr => ⟨hr.1, (h1.trans hq).trans hr.2⟩
      · exact ⟨hp, h1.trans hq⟩
    have after : ∀ q : Fam × St, OkFam N q.1 ∧ Step s1 q.2 → Fine (fun p => OkFam N p.1 ∧ Step s p.2) (do
        let (level, s) ← readLine fill q.2
        if level ≥ L then fam fill (d + 2) L n level q.1 s else .ok (q.1, s)) := by
      intro q hq
      exact (readLine_fine fill q.2 hq.2.2.2.2.1).bind fun r hr => next q.1 hq.1 r (hq.2.trans hr)
    have marr : Fine (fun p => OkFam N p.1 ∧ Step s p.2) (do
        let (level, s) ← readLine fill s1
        let (level, s) ← birth fill level n level s
        if level ≥ L then fam fill (d + 2) L n level p s else .ok (p, s)) := by
      refine (readLine_fine fill s1 h1.2.2.2.1).bind fun q hq => ?_
      refine (birth_fine fill q.1 n q.1 q.2 hq.2.2.2.1 (by have := hq.2.2.2.2; omega)).bind fun r hr => ?_
      exact next p hp r (hq.trans hr)
    have husb := (link_fine d N (fun v => .ok { p with husb := v }) p hp (fun i hi => ⟨Or.inr ⟨i, rfl, hi⟩, hp.2.1, hp.2.2⟩) s1 h1.2.2.2.1 hm1).bind after
    have wife := (link_fine d N (fun v => .ok { p with wife := v }) p hp (fun i hi => ⟨hp.1, Or.inr ⟨i, rfl, hi⟩, hp.2.2⟩) s1 h1.2.2.2.1 hm1).bind after
    have chil := (link_fine d N (fun v => do let c ← push p.chil v; .ok { p with chil := c }) p hp
      (fun i hi => (push_fine N p.chil hp.2.2 i hi).bind fun c hc => ⟨hp.1, hp.2.1, hc⟩) s1 h1.2.2.2.1 hm1).bind after
    dsimp only
    cases token t with
    | none => exact ⟨hp, h1⟩
    | some k =>
      cases k <;>
        first
        | exact marr
        | exact husb
        | exact wife
        | exact chil
        | exact (readLine_fine fill s1 h1.2.2.2.1).bind (next p hp)

/-- A reader between records, with at most `M` individuals ever, that has seen `I` and `F`. -/
structure Good (M : Nat) (I : List Indi) (F : List Fam) (s : St) : Prop where
  clean : Clean s
  imap : MapOk s.inds.length s.imap
  inds : ∀ p ∈ s.inds, OkIndi p
  fams : ∀ p ∈ s.fams, OkFam s.inds.length p
  small : s.inds.length + size s ≤ M
  keepI : I <+: s.inds
  keepF : F <+: s.fams

theorem Good.step {M : Nat} {I : List Indi} {F : List Fam} {s s' : St} (h : Good M I F s) (hs : Step s s') : Good M I F s' := by
  obtain ⟨h1, h2, h3, h4, h5⟩ := hs
  exact ⟨h4, by rw [h1, h3]; exact h.imap, by rw [h1]; exact h.inds, by rw [h1, h2]; exact h.fams, by have := h.small; rw [h1]; omega, by rw [h1]; exact h.keepI, by rw [h2]; exact h.keepF⟩

theorem Small.mono {n m : Nat} (h : n ≤ m) {i} (hi : Small n i) : Small m i := by
  obtain ⟨k, hk, rfl⟩ := hi
  exact ⟨k, by omega, rfl⟩

theorem Link1.mono {n m : Nat} (h : n ≤ m) {v} (hv : Link1 n v) : Link1 m v := by
  rcases hv with rfl | ⟨i, rfl, hi⟩
  · exact Or.inl rfl
  · exact Or.inr ⟨i, rfl, hi.mono h⟩

theorem OkFam.mono {n m : Nat} (h : n ≤ m) {p} (hp : OkFam n p) : OkFam m p := by
  refine ⟨hp.1.mono h, hp.2.1.mono h, ?_⟩
  rcases hp.2.2 with hv | ⟨is, e, hi⟩
  · exact Or.inl (hv.mono h)
  · exact Or.inr ⟨is, e, fun i hi' => (hi i hi').mono h⟩

theorem record_fine (fill : UInt8) (d n M : Nat) (I : List Indi) (F : List Fam) (s : St) (h : Good M I F s) (hn : size s < n + 1) :
    Fine (fun o => ∀ s', o = some s' → Good M I F s' ∧ size s' < size s) (record fill (d + 2) n s) := by
  unfold record
  refine (shift_fine s h.clean).bind fun q hq => ?_
  obtain ⟨x, s1⟩ := q
  obtain ⟨h0, h1⟩ := hq
  refine (shift_fine s1 h1.2.2.2.1).bind fun q hq => ?_
  obtain ⟨t, s2⟩ := q
  obtain ⟨-, h2⟩ := hq
  have h12 := h1.trans h2
  simp only at h12 h0
  have g2 := h.step h12
  have lt : ∀ s', Step s2 s' → Good M I F s' ∧ size s' < size s := fun s' hs => ⟨g2.step hs, (h12.trans hs).2.2.2.2⟩
  have hsz : size s2 < n := by have := h12.2.2.2.2; omega
  have subm : Fine (fun o => ∀ s', o = some s' → Good M I F s' ∧ size s' < size s) (do
      let (level, s) ← readLine fill s2
      let (_, s) ← skip fill level n s
      Outcome.ok (some s)) := by
    refine (readLine_fine fill s2 g2.clean).bind fun q hq => ?_
    refine (skip_fine fill q.1 n q.2 hq.2.2.2.1 (by have := hq.2.2.2.2; omega)).bind fun r hr => ?_
    rintro s' ⟨⟩
    exact lt _ (hq.trans hr)
  have indi : Fine (fun o => ∀ s', o = some s' → Good M I F s' ∧ size s' < size s) (do
      let imap ← mapSet (d + 2) s2.imap (.chars x) (.int (BitVec.ofNat 32 s2.inds.length))
      let (level, s) ← readLine fill { s2 with imap := imap }
      let (p, s) ← indi fill level n level {} s
      Outcome.ok (some { s with inds := s.inds ++ [p] })) := by
    obtain ⟨m', e1, e2, e3, -⟩ := Order.mapSet_spec (Order.isKey_class d) s2.imap (.chars x) (.int (BitVec.ofNat 32 s2.inds.length)) h0 g2.imap.1
    rw [e1, Outcome.bind_ok]
    refine (readLine_fine fill { s2 with imap := m' } g2.clean).bind fun q hq => ?_
    have hq5 : size q.2 < size s2 := hq.2.2.2.2
    refine (indi_fine fill q.1 n q.1 {} ⟨Or.inl rfl, Or.inl rfl, Or.inl rfl⟩ q.2 hq.2.2.2.1 (by omega)).bind fun r hr => ?_
    rintro s' ⟨⟩
    obtain ⟨a1, a2, a3, a4, a5⟩ := hq.trans hr.2
    simp only at a1 a2 a3
    have a6 : size r.2 < size s2 := a5
    refine ⟨⟨a4, ⟨by simp only [a3]; exact e2, ?_⟩, ?_, ?_, ?_, ?_, ?_⟩, ?_⟩
    · intro p hp
      rw [show ({ r.2 with inds := r.2.inds ++ [r.1] } : St).imap = m' from a3] at hp
      have hg := Ini.get_of_mem e2 hp
      rw [e3] at hg
      split at hg
      · refine ⟨_, (Option.some.inj hg).symm, s2.inds.length, ?_, rfl⟩
        simp [a1]
      · obtain ⟨p', hp', -, he⟩ := Ini.mem_of_get hg
        obtain ⟨i, hi1, hi2⟩ := g2.imap.2 p' hp'
        exact ⟨i, he.symm.trans hi1, hi2.mono (by simp [a1])⟩
    · intro p hp
      simp only [List.mem_append, List.mem_singleton, a1] at hp
      rcases hp with hp | rfl
      · exact g2.inds p hp
      · exact hr.1
    · intro p hp
      rw [show ({ r.2 with inds := r.2.inds ++ [r.1] } : St).fams = s2.fams from a2] at hp
      exact (g2.fams p hp).mono (by simp [a1])
    · have := g2.small
      have e : size { r.2 with inds := r.2.inds ++ [r.1] } = size r.2 := rfl
      rw [e]
      simp only [a1, List.length_append, List.length_cons, List.length_nil]
      omega
    · simp only [a1]
      exact g2.keepI.trans (List.prefix_append _ _)
    · simp only [a2]
      exact g2.keepF
    · have e : size { r.2 with inds := r.2.inds ++ [r.1] } = size r.2 := rfl
      rw [e]
      have := h12.2.2.2.2
      omega
  have fam : Fine (fun o => ∀ s', o = some s' → Good M I F s' ∧ size s' < size s) (do
      let (level, s) ← readLine fill s2
      let (p, s) ← fam fill (d + 2) level n level {} s
      Outcome.ok (some { s with fams := s.fams ++ [p] })) := by
    refine (readLine_fine fill s2 g2.clean).bind fun q hq => ?_
    have hq5 : size q.2 < size s2 := hq.2.2.2.2
    refine (fam_fine fill d s2.inds.length q.1 n q.1 {} ⟨Or.inl rfl, Or.inl rfl, Or.inl (Or.inl rfl)⟩ q.2 hq.2.2.2.1
      (by rw [hq.2.2.1]; exact g2.imap) (by omega)).bind fun r hr => ?_
    rintro s' ⟨⟩
    have hs := hq.trans hr.2
    obtain ⟨g, l⟩ := lt _ hs
    refine ⟨⟨g.clean, g.imap, g.inds, ?_, g.small, g.keepI, g.keepF.trans (List.prefix_append _ _)⟩, l⟩
    intro p hp
    simp only [List.mem_append, List.mem_singleton] at hp
    rcases hp with hp | rfl
    · exact g.fams p hp
    · show OkFam r.2.inds.length _
      rw [hs.1]
      exact hr.1
  have other : Fine (fun o => ∀ s', o = some s' → Good M I F s' ∧ size s' < size s) (Outcome.ok (some s2)) := by
    rintro s' ⟨⟩
    exact ⟨g2, h12.2.2.2.2⟩
  dsimp only
  cases token t with
  | none => rintro s' ⟨⟩
  | some k => cases k <;> first | exact subm | exact indi | exact fam | exact other

theorem file_fine (fill : UInt8) (d M : Nat) (I : List Indi) (F : List Fam) (L : Int) (n : Nat) (level : Int) (s : St) (h : Good M I F s) (hn : size s < n) :
    Fine (Good M I F) (file fill (d + 2) L n level s) := by
  induction n generalizing s level with
  | zero => omega
  | succ n ih =>
    rw [file]
    split
    · exact h
    · exact h
    · split
      · refine (record_fine fill d n M I F s h hn).bind fun o ho => ?_
        cases o with
        | none => exact h
        | some s' =>
          obtain ⟨g, l⟩ := ho s' rfl
          dsimp only
          split
          · exact ih _ _ g (by omega)
          · exact g
      · refine (shift_fine s h.clean).bind fun q hq => ?_
        obtain ⟨t, s1⟩ := q
        obtain ⟨-, h1⟩ := hq
        simp only at h1
        have g1 := h.step h1
        have hs : size s1 < n := by have := h1.2.2.2.2; omega
        have head : Fine (Good M I F) (do
            let (level, s) ← readLine fill s1
            let (level, s) ← skip fill level n s
            if level ≥ L then file fill (d + 2) L n level s else .ok s) := by
          refine (readLine_fine fill s1 g1.clean).bind fun q hq => ?_
          refine (skip_fine fill q.1 n q.2 hq.2.2.2.1 (by have := hq.2.2.2.2; omega)).bind fun r hr => ?_
          have hs' := hq.trans hr
          dsimp only
          split
          · exact ih _ _ (g1.step hs') (by have := hs'.2.2.2.2; omega)
          · exact g1.step hs'
        have other : Fine (Good M I F) (if level ≥ L then file fill (d + 2) L n level s1 else .ok s1) := by
          split
          · exact ih _ _ g1 hs
          · exact g1
        dsimp only
        cases token t with
        | none => exact g1
        | some k => cases k <;> first | exact head | exact g1 | exact other

theorem load_fine (fill : UInt8) (d n : Nat) (content : Bytes) (s : St) (M : Nat) (I : List Indi) (F : List Fam) (h : Good M I F { s with rest := content })
    (hn : size { s with rest := content } < n) : Fine (Good M I F) (load fill (d + 2) n content s) := by
  unfold load
  refine (readLine_fine fill _ h.clean).bind fun q hq => ?_
  exact file_fine fill d M I F q.1 n q.1 q.2 (h.step hq) (by have := hq.2.2.2.2; omega)

theorem good_init (content : Bytes) : Good (3 * content.length) [] [] { St.init with rest := content } :=
  ⟨by simp [Clean, St.init], ⟨Order.WF.nil, by simp [St.init]⟩, by simp [St.init], by simp [St.init], by simp [St.init, size], by simp, by simp⟩

theorem Small.index {n : Nat} (hn : n < 2 ^ 31) {i} (h : Small n i) : Index n i := by
  obtain ⟨k, hk, rfl⟩ := h
  have e : (BitVec.ofNat 32 k).toInt = k := by
    rw [BitVec.toInt_eq_toNat_of_lt] <;> rw [BitVec.toNat_ofNat, Nat.mod_eq_of_lt (by omega)]
    omega
  rw [Index, e]
  omega

theorem Link1.link {n : Nat} (hn : n < 2 ^ 31) {v} (h : Link1 n v) : IsLink n v := by
  rcases h with rfl | ⟨i, rfl, hi⟩
  · exact Or.inl rfl
  · exact Or.inr ⟨i, rfl, hi.index hn⟩

theorem Good.sound {M : Nat} {I : List Indi} {F : List Fam} {s : St} (h : Good M I F s) (hM : M < 2 ^ 31) : Sound s.val := by
  have hN : s.inds.length < 2 ^ 31 := by have := h.small; omega
  refine ⟨s.fams.map Fam.val, s.inds.map Indi.val, val_contents s, ?_, ?_⟩
  · intro v hv
    obtain ⟨p, hp, rfl⟩ := List.mem_map.1 hv
    obtain ⟨h1, h2, h3⟩ := h.inds p hp
    exact ⟨p.name, p.sex, p.titl, rfl, h1, h3, h2⟩
  · intro v hv
    obtain ⟨p, hp, rfl⟩ := List.mem_map.1 hv
    obtain ⟨h1, h2, h3⟩ := h.fams p hp
    rw [List.length_map]
    refine ⟨p.chil, p.husb, p.wife, rfl, ?_, h1.link hN, h2.link hN⟩
    rcases h3 with h3 | ⟨is, e, hi⟩
    · exact Or.inl (h3.link hN)
    · exact Or.inr ⟨is, e, fun i hi' => (hi i hi').index hN⟩

/-- The reader can go on with another file. -/
theorem Good.again {M : Nat} {I : List Indi} {F : List Fam} {s : St} (h : Good M I F s) (content : Bytes) :
    Good (M + 3 * content.length) s.inds s.fams { s with rest := content } := by
  refine ⟨h.clean, h.imap, h.inds, h.fams, ?_, List.prefix_rfl, List.prefix_rfl⟩
  have := h.small
  simp only [size] at this ⊢
  omega

/-- The fields of the last line read do not matter if there is something to read. -/
theorem load_field (fill : UInt8) (d n : Nat) (content : Bytes) (hc : content ≠ []) {r r' : Bytes} (f : List Bytes) {g : List Bytes} {is : List Indi}
    {fs : List Fam} {m : List (Val × Val)} : load fill d n content ⟨r, f, is, fs, m⟩ = load fill d n content ⟨r', g, is, fs, m⟩ := by
  have : readLine fill ⟨content, f, is, fs, m⟩ = readLine fill ⟨content, g, is, fs, m⟩ := by
    by_cases h10 : (10 : UInt8) ∈ content
    · obtain ⟨a, b, rfl, ha⟩ := List.eq_append_cons_of_mem h10
      simp only [readLine, nextLine, GetLine.getline_line fill [] a b ha, Outcome.bind_ok]
    · simp only [readLine, nextLine, GetLine.getline_last fill [] content h10 hc, Outcome.bind_ok]
  simp only [load, this]

end Libube.Ged

import Verif.Lemmas.MemFrame
import Verif.Lemmas.MemCallFrame
import Verif.Spec.MemShare

/-! # Sharing and copying -/

namespace Libube.Mem

open MemSpec

variable {α β : Type}

/-- Every statement but an assignment to it leaves a variable the array it is, as long as it is in scope. -/
theorem run_spares [Env α] {s s' : State α} {n : Nat} {a : Addr} (h : s.stk[n]? = some (.arr a)) {st : Stmt α}
    (hst : Spares n st) (he : Ends st s s') (hn : n < s'.stk.length) : s'.stk[n]? = some (.arr a) := by
  let f : Fr α := ⟨fun m v => m = n ∧ v = .arr a, fun _ => False, ⟨[], []⟩⟩
  have hi : ∀ t : State α, t.stk[n]? = some (.arr a) → f.Inv t := fun t ht =>
    ⟨by rintro m v ⟨rfl, rfl⟩; exact ht, Nat.zero_le _, fun b hb => absurd hb id⟩
  have ho : ∀ t : State α, f.Inv t → t.stk[n]? = some (.arr a) := fun t ht => ht.1 n _ ⟨rfl, rfl⟩
  have hno : f.NoF := fun _ h => h
  have hok : ∀ m, f.Okay (.slot m) := by
    intro m
    by_cases hm : m = n
    · exact .inl ⟨m, a, rfl, ⟨hm, rfl⟩, id⟩
    · exact .inr ⟨fun v hv => hm hv.1, hno⟩
  have hev : ∀ e : Exp α, e ∈ exps st → f.H (eval e) Any := fun e he => eval_frame hno hok e fun m hm v hv => hst.2.2 e he (hv.1 ▸ hm)
  by_cases hl : st = .leave
  · subst hl
    have hrun : run (.leave : Stmt α) s = match s.stk.getLast? with
        | none => .ub .badPointer
        | some v => detachV v { s with stk := s.stk.dropLast } := rfl
    unfold Ends at he
    rw [hrun] at he
    cases hg : s.stk.getLast? with
    | none => rw [hg] at he; rcases he with he | ⟨e, he⟩ <;> cases he
    | some v =>
      rw [hg] at he
      simp only at he
      have key : ∀ s1 : State α, (∃ mem', s1 = { mem := mem', stk := s.stk.dropLast }) → s1 = s' → s'.stk[n]? = some (.arr a) := by
        rintro s1 ⟨mem', rfl⟩ rfl
        simp only at hn ⊢
        rw [List.length_dropLast] at hn
        rw [List.dropLast_eq_take, List.getElem?_take, if_pos hn]
        exact h
      have hd : ∀ (u : R α Unit), detachV v { s with stk := s.stk.dropLast } = u → match u with
          | .ok _ s1 => ∃ mem', s1 = { mem := mem', stk := s.stk.dropLast }
          | .thrown _ s1 => ∃ mem', s1 = { mem := mem', stk := s.stk.dropLast }
          | _ => True := by
        rintro _ rfl
        simp only [detachV, bind_run, M.bind, getMem, liftO]
        cases release (weight s.mem + 1) v.ptr.toList s.mem with
        | ok mem' => exact ⟨mem', rfl⟩
        | thrown x => exact ⟨s.mem, rfl⟩
        | _ => trivial
      rcases he with he | ⟨e, he⟩
      · exact key s' (hd _ he) rfl
      · exact key s' (hd _ he) rfl
  · have hrun : f.H (run st) Any := by
      cases st with
      | decl e =>
        refine .bind (hev e (by simp [exps])) fun v _ => fun t ht => ⟨hi _ (slot_append (ho t ht)), trivial⟩
      | leave => exact absurd rfl hl
      | assign m e =>
        have hm : m ≠ n := fun hm => hst.1 e (by rw [hm])
        exact .bind (hev e (by simp [exps])) fun v _ => assign_free v (fun w hw => hm hw.1) hno
      | setElem m i e => exact .bind (hev e (by simp [exps])) fun v _ => setIndex_frame i v (hok m)
      | setAt m i e => exact .bind (hev e (by simp [exps])) fun v _ => .bind (RO.frame (readLoc_ro _)) fun t _ => setAt_frame i v (.inr hno)
      | setKey m k e =>
        exact .bind (hev e (by simp [exps])) fun v _ => withVar_frame fun _ _ => .bind (eval_frame hno hok _ fun p hp v hv => hst.2.2 k (by simp [exps]) (hv.1 ▸ hp)) fun r _ => setTemp_frame v fun b _ => hno b
      | push m e => exact .bind (hev e (by simp [exps])) fun v _ => push_frame v (hok m)
      | unshift m e => exact .bind (hev e (by simp [exps])) fun v _ => unshift_frame v (hok m)
      | insert m e p => exact .bind (hev e (by simp [exps])) fun v _ => insert_frame hno (hok m) v p
      | resize m k => exact resize_frame k (hok m)
      | array m => exact array_frame (hok m)
      | clear m =>
        have hm : m ≠ n := fun hm => hst.2.1 (by rw [hm])
        exact assign_free _ (fun w hw => hm hw.1) hno
      | presize m k => exact presize_frame k (hok m)
      | append m k xs => exact append_frame k xs (hok m)
      | appendVar m e =>
        exact .bind (hev e (by simp [exps])) fun v _ => .bind (RO.frame (readLoc_ro _)) fun t _ => .bind (RO.frame (sizeV_ro t)) fun p _ =>
          insert_frame hno (hok m) v p
      | eval e => exact .bind (hev e (by simp [exps])) fun v _ => detachV_frame v
      | differ N d m k =>
        exact .bind (.bind (RO.frame (readLoc_ro _)) fun _ _ => .bind (RO.frame (readLoc_ro _)) fun _ _ => callOp_frame (neqV_frame N d) _ _) fun _ _ => .pure trivial
      | equal N d m k => exact .bind (.bind (RO.frame (readLoc_ro _)) fun _ _ => .bind (RO.frame (readLoc_ro _)) fun _ _ => eqV_frame N d _ _) fun _ _ => .pure trivial
      | less N d m k =>
        exact .bind (.bind (RO.frame (readLoc_ro _)) fun _ _ => .bind (RO.frame (readLoc_ro _)) fun _ _ => callOp_frame (ltV_frame N d) _ _) fun _ _ => .pure trivial
      | find N d m k =>
        exact .bind (.bind (RO.frame (readLoc_ro _)) fun _ _ => .bind (copyV_frame _) fun _ _ => withVar_frame fun _ _ => .bind (RO.frame (readLoc_ro _)) fun _ _ =>
          .bind (RO.frame (readLoc_ro _)) fun _ _ => indexV_frame N d _ _) fun _ _ => .pure trivial
      | sort N d m =>
        exact .bind (RO.frame (readLoc_ro _)) fun _ _ => .bind (sortV_frame hno N d _) fun v _ => fun t ht => ⟨hi _ (slot_append (ho t ht)), trivial⟩
      | print _ p d m =>
        exact .bind (.bind (RO.frame (readLoc_ro _)) fun _ _ => .bind (copyV_frame _) fun _ _ => putVar_frame (format_frame hno p d 0) _) fun _ _ => .pure trivial
    have := hrun s (hi s h)
    rcases he with he | ⟨e, he⟩
    · rw [he] at this
      exact ho _ this.1
    · rw [he] at this
      exact ho _ this

theorem quiet_eval [Env α] {f : Fr α} {s : State α} (hs : f.Inv s) (e : Exp α) (hq : Quiet s e) : f.Post (eval e s) Any := by
  induction e with
  | nil => exact ⟨hs, trivial⟩
  | num k x => exact newNum_frame k x s hs
  | str cs => exact newStr_frame cs s hs
  | name n => exact Fr.H.bind (RO.frame (readLoc_ro _)) (fun v _ => (copyV_frame v).any) s hs
  | elem n i =>
    obtain ⟨a, o, j, rfl, h1, h2, h3⟩ := hq
    show f.Post (index (.slot n) j s) Any
    rw [index_in h1 h2 h3]
    exact ⟨hs.set _ fun _ o' ho' => ⟨o, h2, by cases ho'; simp⟩, trivial⟩
  | «at» n i => exact Fr.H.bind (RO.frame (readLoc_ro _)) (fun v _ => at'_any v i) s hs
  | top n => exact Fr.H.bind (RO.frame (readLoc_ro _)) (fun v _ => .bind (RO.frame (sizeV_ro _)) fun _ _ => at'_any v _) s hs
  | key n k ih => exact absurd hq id
  | atKey n k ih =>
    have h1 := ih hq
    show f.Post (M.bind (eval k) (fun v => withVar v fun _ => readLoc (.slot n) >>= fun t => mapAt t v) s) Any
    unfold M.bind
    revert h1
    cases eval k s with
    | ok v s1 =>
      exact fun h1 => withVar_frame (fun _ _ => .bind (RO.frame (readLoc_ro _)) fun t _ => mapAt_frame t v) s1 h1.1
    | thrown x s1 => exact fun h1 => h1
    | _ => exact fun _ => trivial
  | copy n => exact Fr.H.bind (RO.frame (readLoc_ro _)) (fun v _ => copy_frame v) s hs
  | pop n => exact absurd hq id
  | shift n => exact absurd hq id
  | remove n i => exact absurd hq id
  | math F d n => exact absurd hq id
  | mathTo F d n m => exact absurd hq id
  | text S d n => exact absurd hq id
  | textTo S d n m => exact absurd hq id
  | arith F d n e => exact absurd hq id
  | arithTo F d n e m => exact absurd hq id
  | move n => exact absurd hq id

/-- Statements on the array of one variable change no element of the array of another. -/
theorem through_frame [Env α] {f : Fr α} {s : State α} (hs : f.Inv s) {n : Nat} {a : Addr} (hL : f.L n (.arr a)) (ha : ¬ f.F a)
    {st : Stmt α} (ht : Through n s st) : f.Post (run st s) Any := by
  have hok : f.Okay (.slot n) := .inl ⟨n, a, rfl, hL, ha⟩
  have seq : ∀ (e : Exp α) (k : V α → M α Unit), Quiet s e → (∀ v, f.H (k v) Any) → f.Post ((eval e >>= k) s) Any := by
    intro e k hq hk
    have h1 := quiet_eval hs e hq
    rw [bind_run]
    unfold M.bind
    revert h1
    cases eval e s with
    | ok v s1 => exact fun h1 => hk v s1 h1.1
    | thrown x s1 => exact fun h1 => h1
    | _ => exact fun _ => trivial
  cases ht with
  | setElem i e hq => exact seq e _ hq fun v => setIndex_frame i v hok
  | setAt i e hq => exact seq e _ hq fun v => .bind (okay_read hok) fun t ht => setAt_frame i v (Arr.of ht)
  | push e hq => exact seq e _ hq fun v => push_frame v hok
  | unshift e hq => exact seq e _ hq fun v => unshift_frame v hok
  | resize k => exact resize_frame k hok s hs
  | pop => exact Fr.H.bind (pop_frame hok) (fun v _ => detachV_frame v) s hs
  | shift => exact Fr.H.bind (shift_frame hok) (fun v _ => detachV_frame v) s hs
  | remove i => exact Fr.H.bind (remove_frame hok i) (fun v _ => detachV_frame v) s hs

theorem detachV_stk {v : V α} {s s' : State α} {u : Unit} (h : detachV v s = .ok u s') : s'.stk = s.stk := by
  simp only [detachV, bind_run, M.bind, getMem, liftO] at h
  cases hr : release (weight s.mem + 1) v.ptr.toList s.mem with
  | ok mem' => rw [hr] at h; cases h; rfl
  | _ => rw [hr] at h; cases h

theorem withVar_stk {v : V α} {g : Loc → M α β} {s s' : State α} {b : β} (h : withVar v g s = .ok b s') :
    ∃ s1, g (.slot s.stk.length) { s with stk := s.stk ++ [v] } = .ok b s1 ∧ s'.stk = s1.stk.take s.stk.length := by
  unfold withVar at h
  simp only at h
  cases hg : g (.slot s.stk.length) { s with stk := s.stk ++ [v] } with
  | ok b1 s1 =>
    rw [hg] at h
    simp only at h
    cases hw : s1.stk[s.stk.length]? with
    | none => rw [hw] at h; cases h
    | some w =>
      rw [hw] at h
      simp only at h
      cases hd : detachV w { s1 with stk := s1.stk.take s.stk.length } with
      | ok u s2 =>
        rw [hd] at h
        cases h
        exact ⟨s1, rfl, detachV_stk hd⟩
      | _ => rw [hd] at h; cases h
  | thrown e s1 =>
    rw [hg] at h
    simp only at h
    cases hw : s1.stk[s.stk.length]? with
    | none => rw [hw] at h; cases h
    | some w =>
      rw [hw] at h
      simp only at h
      cases hd : detachV w { s1 with stk := s1.stk.take s.stk.length } <;> rw [hd] at h <;> cases h
  | _ => rw [hg] at h; cases h

/-- Assigning an array to a variable makes them the same. -/
theorem assign_same [Env α] {s s' : State α} {n m : Nat} {a : Addr} {t : V α} (h : s.stk[n]? = some (.arr a))
    (hm : s.stk[m]? = some t) (ht : ∀ b i, t ≠ .ref b i) (hr : run (.assign m (.name n)) s = .ok () s') : SameArray s' n m := by
  obtain ⟨v, s1, hv, hr⟩ := bind_ok (m := eval (.name n)) hr
  obtain ⟨v', s0, hv0, hv⟩ := bind_ok (m := readLoc (.slot n)) hv
  rw [readSlot h] at hv0
  cases hv0
  obtain ⟨u, s2, hat, hv⟩ := bind_ok (m := attachV (.arr a)) hv
  cases hv
  have e1 : s1.stk = s.stk := attachV_stk hat
  unfold assign at hr
  rw [bind_eq (readSlot (by rw [e1]; exact hm))] at hr
  have hr : assignPlain (.slot m) (.arr a) s1 = .ok () s' := by
    cases t with
    | ref b i => exact absurd rfl (ht b i)
    | _ => exact hr
  obtain ⟨s2, hr, hs'⟩ := withVar_stk hr
  have hlt : m < s1.stk.length := by rw [e1]; exact (List.getElem?_eq_some_iff.1 hm).1
  have hlt' : n < s1.stk.length := by rw [e1]; exact (List.getElem?_eq_some_iff.1 h).1
  have hm1 : ({ s1 with stk := s1.stk ++ [.arr a] } : State α).stk[m]? = some t := slot_append (by rw [e1]; exact hm)
  rw [bind_eq (readSlot hm1)] at hr
  have hr : (share (.slot m) (.arr a) >>= fun _ => dereference (.slot m) >>= fun _ => pure ()) { s1 with stk := s1.stk ++ [.arr a] } = .ok () s2 := by
    cases t with
    | ref b i => exact absurd rfl (ht b i)
    | _ => exact hr
  obtain ⟨u, s3, hsh, hr⟩ := bind_ok hr
  unfold share at hsh
  rw [bind_eq (readSlot hm1)] at hsh
  obtain ⟨u1, s4, hat4, hsh⟩ := bind_ok hsh
  have e4 := attachV_stk hat4
  obtain ⟨u2, s5, hw5, hsh⟩ := bind_ok hsh
  have e5 : s5.stk = s4.stk.set m (.arr a) := by
    unfold writeLoc at hw5
    simp only at hw5
    split at hw5
    · cases hw5; rfl
    · cases hw5
  have e3 : s3.stk = s5.stk := by
    cases t with
    | arr b => exact detachV_stk hsh
    | _ => cases hsh; rfl
  have hm3 : s3.stk[m]? = some (.arr a) := by
    rw [e3, e5, e4]
    simp only
    rw [List.getElem?_set_self (by simp; omega)]
  have hr2 : s2 = s3 := by
    rw [bind_eq (dereference_arr (readSlot hm3))] at hr
    cases hr
    rfl
  subst hr2
  refine ⟨a, ?_, ?_⟩
  · rw [hs', List.getElem?_take, if_pos hlt', e3, e5, e4]
    simp only
    by_cases hnm : m = n
    · subst hnm
      rw [List.getElem?_set_self (by simp; omega)]
    · rw [List.getElem?_set_ne hnm]
      exact slot_append (by rw [e1]; exact h)
  · rw [hs', List.getElem?_take, if_pos hlt]
    exact hm3

/-! ## Copying -/

/-- Counting up leaves the elements. -/
def SameData (s s' : State α) : Prop :=
  s'.stk = s.stk ∧ s'.mem.length = s.mem.length ∧ (∀ (b : Nat) (o : Obj α), s.mem[b]? = some (some o) →
    ∃ o' : Obj α, s'.mem[b]? = some (some o') ∧ o'.kind = o.kind ∧ o'.size = o.size ∧ o'.cells = o.cells) ∧
  ∀ b : Nat, s.mem[b]? = some none → s'.mem[b]? = some none

theorem attachAll_run (l : List Addr) (s : State α) (h : ∀ b ∈ l, ∃ o : Obj α, s.mem[b]? = some (some o)) :
    ∃ s', attachAll l s = .ok () s' ∧ SameData s s' := by
  induction l generalizing s with
  | nil => exact ⟨s, rfl, rfl, rfl, fun b o ho => ⟨o, ho, rfl, rfl, rfl⟩, fun b h => h⟩
  | cons a l ih =>
    obtain ⟨o, ho⟩ := h a List.mem_cons_self
    have h1 : ∀ (b : Nat) (p : Obj α), s.mem[b]? = some (some p) →
        ∃ p' : Obj α, (upd s a { o with rc := o.rc + 1 }).mem[b]? = some (some p') ∧ p'.kind = p.kind ∧ p'.size = p.size ∧ p'.cells = p.cells := by
      intro b p hp
      by_cases hab : a = b
      · subst hab
        rw [ho] at hp
        cases hp
        exact ⟨_, upd_get ho _, rfl, rfl, rfl⟩
      · exact ⟨p, by rw [upd_other hab]; exact hp, rfl, rfl, rfl⟩
    obtain ⟨s', h2, h3, h4, h5, h6⟩ := ih (upd s a { o with rc := o.rc + 1 }) (fun b hb => by
      obtain ⟨p, hp⟩ := h b (List.mem_cons_of_mem _ hb)
      obtain ⟨p', hp', -⟩ := h1 b p hp
      exact ⟨p', hp'⟩)
    refine ⟨s', (bind_eq (attach_run (v := .arr a) rfl ho)).trans h2, h3, by simpa [upd] using h4, fun b p hp => ?_, fun b hb => h6 b ?_⟩
    · obtain ⟨p1, hp1, e1, e2, e3⟩ := h1 b p hp
      obtain ⟨p2, hp2, e4, e5, e6⟩ := h5 b p1 hp1
      exact ⟨p2, hp2, e4.trans e1, e5.trans e2, e6.trans e3⟩
    · rw [upd_other (fun hab => by subst hab; rw [ho] at hb; cases hb)]
      exact hb

/-- A new array. -/
theorem newObj_run [Env α] (k : Kind) (n : Nat) (hn : n + 1 ≤ 2 ^ 30) :
    ∃ cells : List (Cell α), resizeObj ⟨k, 0, 1, []⟩ n = .ok ⟨k, n, 1, cells⟩ ∧ n ≤ cells.length ∧ ∀ c ∈ cells, c.ptrs = [] := by
  unfold resizeObj
  obtain ⟨c, h1, -, h2, h3, -⟩ := Alloc.allocSize_least (if k = .char then (n : Int) + 1 else n) (by split <;> omega) (by
    have : (n : Int) + 1 ≤ 2 ^ 30 := by exact_mod_cast hn
    split <;> omega)
  simp only [h1, Outcome.bind_ok]
  have hg : growCells k ([] : List (Cell α)) c = .ok (List.replicate c.toNat (freshCell k)) := by
    unfold growCells
    rw [if_pos (by rfl), if_neg (by omega)]
  rw [hg, Outcome.bind_ok]
  have hp : ∀ d ∈ List.replicate c.toNat (freshCell k : Cell α), d.ptrs = [] := by
    intro d hd
    rw [(List.mem_replicate.1 hd).2]
    cases k <;> rfl
  unfold terminate
  by_cases hc : k = .char
  · rw [if_pos hc] at h2
    rw [if_pos hc, if_pos (by simp; omega), Outcome.bind_ok]
    refine ⟨_, rfl, by simp; omega, fun d hd => ?_⟩
    rcases List.mem_or_eq_of_mem_set hd with hd | hd
    · exact hp d hd
    · rw [hd]; rfl
  · rw [if_neg hc] at h2
    rw [if_neg hc, Outcome.bind_ok]
    exact ⟨_, rfl, by simp; omega, hp⟩

theorem copy_arr [Env α] {s : State α} {own : List Addr} (hi : Inv s own) {a : Addr} {o : Obj α} (h : s.mem[a]? = some (some o))
    (hcap : o.size ≤ o.cells.length) (hn : o.size + 1 ≤ 2 ^ 30) (hk1 : o.kind ≠ .cfloat) (hk2 : o.kind ≠ .cdouble) :
    ∃ (s1 : State α) (o' : Obj α), copy (.arr a) s = .ok (.arr s.mem.length) { mem := s1.mem ++ [some o'], stk := s1.stk } ∧
      SameData s s1 ∧ o'.kind = o.kind ∧ o'.size = o.size ∧ o.size ≤ o.cells.length ∧
      ∃ rest, o'.cells = o.cells.take o.size ++ rest := by
  obtain ⟨cells, h1, h2, h3⟩ := newObj_run (α := α) o.kind o.size hn
  have hc : copyObj o = .ok ⟨o.kind, o.size, 1, o.cells.take o.size ++ cells.drop o.size⟩ := by
    unfold copyObj
    rw [h1, Outcome.bind_ok]
    have key : (if o.size ≤ o.cells.length ∧ o.size ≤ cells.length then
        (.ok ⟨o.kind, o.size, 1, o.cells.take o.size ++ cells.drop o.size⟩ : Outcome (Obj α)) else .ub .outOfBounds) =
        .ok ⟨o.kind, o.size, 1, o.cells.take o.size ++ cells.drop o.size⟩ := if_pos ⟨hcap, h2⟩
    rw [← key]
    revert hk1 hk2
    generalize o.kind = kk
    cases kk <;> simp
  have hal : ∀ b ∈ Obj.ptrs (⟨o.kind, o.size, 1, o.cells.take o.size ++ cells.drop o.size⟩ : Obj α), ∃ p : Obj α, s.mem[b]? = some (some p) := by
    intro b hb
    unfold Obj.ptrs at hb
    obtain ⟨c, hc, hb⟩ := List.mem_flatMap.1 hb
    rcases List.mem_append.1 hc with hc | hc
    · obtain ⟨p, hp, -⟩ := InvM.alive hi (a := b) (.inl (List.mem_flatMap.2 ⟨some o, List.mem_of_getElem? h,
        List.mem_flatMap.2 ⟨c, List.mem_of_mem_take hc, hb⟩⟩))
      exact ⟨p, hp⟩
    · rw [h3 c (List.mem_of_mem_drop hc)] at hb
      cases hb
  obtain ⟨s1, h4, h5⟩ := attachAll_run _ s hal
  refine ⟨s1, ⟨o.kind, o.size, 1, o.cells.take o.size ++ cells.drop o.size⟩, ?_, h5, rfl, rfl, hcap, cells.drop o.size, rfl⟩
  unfold copy
  rw [bind_eq (heapOf_arr a s)]
  simp only
  rw [bind_eq (obj_eq h), hc]
  refine (bind_eq h4).trans ?_
  show R.ok (V.arr s1.mem.length) _ = _
  rw [h5.2.1]

theorem copy_all [Env α] {s : State α} (hr : Reach s) {a : Addr} {o : Obj α} (h : s.mem[a]? = some (some o))
    (hn : o.size + 1 ≤ 2 ^ 30) (hk1 : o.kind ≠ .cfloat) (hk2 : o.kind ≠ .cdouble) :
    ∃ (s1 : State α) (o' : Obj α), copy (.arr a) s = .ok (.arr s.mem.length) { mem := s1.mem ++ [some o'], stk := s1.stk } ∧
      SameData s s1 ∧ o'.kind = o.kind ∧ o'.size = o.size ∧ o.size ≤ o.cells.length ∧
      ∃ rest, o'.cells = o.cells.take o.size ++ rest := by
  obtain ⟨own, hi⟩ := reach_inv hr
  refine copy_arr hi h ?_ hn hk1 hk2
  have := (reach_nice hr a o h).fits
  unfold Obj.need at this
  split at this <;> omega

end Libube.Mem

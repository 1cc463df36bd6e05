import Verif.Lemmas.MemMaps
import Verif.Spec.MemMaps

/-! # Statements about maps -/

namespace Libube.Mem

open MemSpec

/-- The pairs `ps` are the entries `l`. -/
structure MK (s : State α) (l : List (Item α × V α)) (ps : List (V α × V α)) : Prop where
  len : ps.length = l.length
  get : ∀ (i : Nat) (t : Item α) (w : V α), l[i]? = some (t, w) → ∃ k, ps[i]? = some (k, w) ∧ t.Shown s k

theorem MK.back {s : State α} {l : List (Item α × V α)} {ps : List (V α × V α)} (h : MK s l ps) {i : Nat} {k w : V α} (hi : ps[i]? = some (k, w)) :
    ∃ t, l[i]? = some (t, w) ∧ t.Shown s k := by
  have hl : i < l.length := by rw [← h.len]; exact (List.getElem?_eq_some_iff.1 hi).1
  obtain ⟨k', h1, h2⟩ := h.get i l[i].1 l[i].2 (List.getElem?_eq_getElem hl)
  rw [hi] at h1
  cases h1
  exact ⟨l[i].1, List.getElem?_eq_getElem hl, h2⟩

theorem ma_of_entries [Env α] {s : State α} (hr : Reach s) {n : Nat} {l : List (Item α × V α)} (h : Entries s n l) :
    ∃ own a ps cells, MA s own n a ps cells ∧ MK s l ps := by
  obtain ⟨ks, hl, ⟨a, o, h1, h2, h3, h4, h5⟩, h6⟩ := h
  obtain ⟨own, hi⟩ := reach_inv hr
  have hlen : (ks.zip l).length = l.length := by simp [hl]
  refine ⟨own, a, (ks.zip l).map fun p => (p.1, p.2.2), o.cells, ⟨hi, h1, ⟨o.rc, ?_⟩, fun i k v hv => ?_, nice_clean hr h2⟩, by simp [hl], fun i t w hw => ?_⟩
  · rw [h2, ← h3, show ((ks.zip l).map fun p => (p.1, p.2.2)).length = o.size by rw [h4, List.length_map, List.length_map]]
  · refine h5 i _ ?_
    rw [List.getElem?_map] at hv ⊢
    cases hz : (ks.zip l)[i]? with
    | none => rw [hz] at hv; cases hv
    | some q => rw [hz] at hv; cases hv; rfl
  · have hil : i < ks.length := by rw [hl]; exact (List.getElem?_eq_some_iff.1 hw).1
    have hk := List.getElem?_eq_getElem hil
    refine ⟨ks[i], ?_, h6 i t w _ hw hk⟩
    rw [List.getElem?_map, List.getElem?_zip_eq_some (z := (ks[i], (t, w))) |>.2 ⟨hk, hw⟩]
    rfl

theorem MA.entries {s : State α} {own : List Addr} {n a : Nat} {l : List (Item α × V α)} {ps : List (V α × V α)} {cells : List (Cell α)}
    (h : MA s own n a ps cells) (hk : MK s l ps) : Entries s n l := by
  obtain ⟨rc, g⟩ := h.is
  refine ⟨ps.map Prod.fst, by simp [hk.len], ⟨a, _, h.slot, g, rfl, by simp [hk.len], fun i c hc => ?_⟩, fun i t w k ht hks => ?_⟩
  · rw [List.getElem?_map] at hc
    cases hz : ((ps.map Prod.fst).zip l)[i]? with
    | none => rw [hz] at hc; cases hc
    | some q =>
      rw [hz] at hc
      cases hc
      rw [List.getElem?_zip_eq_some] at hz
      obtain ⟨k, h1, -⟩ := hk.get i q.2.1 q.2.2 hz.2
      have : q.1 = k := by
        have h2 := hz.1
        rw [List.getElem?_map, h1] at h2
        cases h2
        rfl
      show cells[i]? = some (Cell.pair q.1 q.2.2)
      rw [this]
      exact h.elem i k _ h1
  · obtain ⟨k', h1, h2⟩ := hk.get i t w ht
    rw [List.getElem?_map, h1] at hks
    cases hks
    exact h2

/-- Keys and what they show survive changes of other arrays. -/
theorem shown_oth [Env α] (K : KeyOrder α) {m1 m2 : List (Option (Obj α))} {stk1 stk2 : List (V α)} {a : Nat} {P : Addr → Prop} (hp : ∀ b, P b → b = a)
    {j : Nat} {cells : List (Cell α)} (ha : Is m1 a .pair j cells) (ho : Oth P m1 m2) {t : Item α} (ht : K.Key t) {v : V α}
    (h : t.Shown ⟨m1, stk1⟩ v) (hl : ∀ b ∈ v.ptr.toList, Live m2 b) : t.Shown ⟨m2, stk2⟩ v := by
  rcases K.simple ht with ⟨k, x, rfl, -⟩ | ⟨cs, rfl, -⟩
  · exact h
  · obtain ⟨b, o, rfl, h1, h2, h3, h4⟩ := h
    have hba : ¬ P b := by
      intro hb
      have := hp b hb
      subst this
      obtain ⟨rc, g⟩ := ha
      rw [g] at h1
      cases h1
      cases h2
    obtain ⟨rc, g⟩ := Is.kept (k := o.kind) (n := o.size) (cells := o.cells) ⟨o.rc, h1⟩ ho hba (hl b (by simp [V.ptr]))
    exact ⟨b, _, rfl, g, h2, h3, h4⟩

theorem shown_plain [Env α] (K : KeyOrder α) {s : State α} {t : Item α} (ht : K.Key t) {v : V α} (h : t.Shown s v) : ¬ v.IsRef := by
  rcases K.simple ht with ⟨k, x, rfl, -⟩ | ⟨cs, rfl, -⟩
  · rw [show v = .num k x from h]; exact id
  · obtain ⟨b, o, rfl, -⟩ := h; exact id

/-- Evaluating a key. -/
theorem key_tot [Env α] (K : KeyOrder α) {s : State α} {own : List Addr} (hi : Inv s own) {e : Exp α} {t : Item α} (ht : K.Key t) (he : KeyExp s e t) :
    ∃ mem' v, eval e s = .ok v { s with mem := mem' } ∧ Inv { s with mem := mem' } (v.ptr.toList ++ own) ∧ Kept s.mem mem' ∧
      t.Shown { s with mem := mem' } v := by
  rcases he with rfl | ⟨m, v, rfl, hv, hs⟩
  · rcases K.simple ht with ⟨k, x, rfl, hk⟩ | ⟨cs, rfl, hf⟩
    · exact ⟨s.mem, .num k x, newNum_scalar hk x s, by simpa [V.ptr] using hi, Oth.refl _ _, rfl⟩
    · have hf : cs.length + 2 ≤ 2 ^ 30 := hf
      obtain ⟨ob, h1, h2, h3, h4⟩ := newStr_run cs s (by omega)
      have i1 := (eval_keep (lk := false) (Exp.str cs)).inv (own := own) hi h1
      refine ⟨_, _, h1, i1, ⟨by simp, fun b o' _ hb ho => ?_⟩, s.mem.length, ob, rfl, by simp, h3, h2.size, h2.elem⟩
      rw [List.getElem?_append_left hb] at ho
      exact ⟨o', ho, rfl, rfl, rfl⟩
  · obtain ⟨m1, e1, i1, k1, -⟩ := attach_tot (v := v) hi (fun b hb => hi.stk_live (mem_stkPtrs hv hb))
    refine ⟨m1, v, ?_, i1, k1, ?_⟩
    · refine (bind_eq (readSlot hv)).trans ?_
      unfold copyV
      exact (bind_eq e1).trans rfl
    · rcases K.simple ht with ⟨k, x, rfl, -⟩ | ⟨cs, rfl, -⟩
      · exact hs
      · obtain ⟨b, o, rfl, h1, h2, h3, h4⟩ := hs
        obtain ⟨rc, g⟩ := Is.kept (k := o.kind) (n := o.size) (cells := o.cells) ⟨o.rc, h1⟩ k1 id (i1.own_live (by simp [V.ptr]))
        exact ⟨b, _, rfl, g, h2, h3, h4⟩

theorem ascending_get [Env α] {K : KeyOrder α} {l : List (Item α × V α)} (h : Ascending K l) {i j : Nat} {p q : Item α × V α} (hij : i < j)
    (hp : l[i]? = some p) (hq : l[j]? = some q) : K.lt p.1 q.1 := by
  obtain ⟨h1, rfl⟩ := List.getElem?_eq_some_iff.1 hp
  obtain ⟨h2, rfl⟩ := List.getElem?_eq_some_iff.1 hq
  exact List.pairwise_iff_getElem.1 h.2 i j h1 h2 hij

/-- The search for a key. -/
theorem find_tot [Env α] (K : KeyOrder α) {s : State α} {own : List Addr} {n a : Nat} {l : List (Item α × V α)} {ps : List (V α × V α)}
    {cells : List (Cell α)} (h : MA s own n a ps cells) (hk : MK s l ps) (hl : Ascending K l) {t : Item α} (ht : K.Key t) {v : V α} (hv : t.Shown s v) :
    ∃ p, searchKeys a v (ps.length + 1) 0 ps.length s = .ok p s ∧ p ≤ ps.length ∧
      ((∃ w k, l[p]? = some (t, w) ∧ ps[p]? = some (k, w) ∧ Env.differ s.mem k v = false) ∨
       (Absent l t ∧ (∀ k u, ps[p]? = some (k, u) → Env.differ s.mem k v = true) ∧
        (∀ q ∈ l.take p, K.lt q.1 t) ∧ ∀ q ∈ l.drop p, K.lt t q.1)) := by
  have key : ∀ {i : Nat} {k u : V α}, ps[i]? = some (k, u) → ∃ t', l[i]? = some (t', u) ∧ K.Key t' ∧ (Env.less s.mem k v = true ↔ K.lt t' t) ∧
      (Env.differ s.mem k v = true ↔ t' ≠ t) := fun hi => by
    obtain ⟨t', h1, h2⟩ := hk.back hi
    have hkey := hl.1 _ (List.mem_of_getElem? h1)
    exact ⟨t', h1, hkey, K.less hkey ht h2 hv, K.differ hkey ht h2 hv⟩
  obtain ⟨p, e, hp⟩ := place_tot h (v := v) (fun i j k u k' u' hij hi hj hless => by
    obtain ⟨t1, a1, a2, a3, -⟩ := key hi
    obtain ⟨t2, b1, b2, b3, -⟩ := key hj
    exact a3.2 (K.trans a2 b2 ht (ascending_get hl hij a1 b1) (b3.1 hless)))
  refine ⟨p, e, hp.le, ?_⟩
  by_cases hab : Absent l t
  · refine .inr ⟨hab, fun k u hpk => ?_, fun q hq => ?_, fun q hq => ?_⟩
    · obtain ⟨t', h1, -, -, h4⟩ := key hpk
      exact h4.2 (fun e => hab u (e ▸ List.mem_of_getElem? h1))
    · obtain ⟨t0, w0⟩ := q
      obtain ⟨i, hi⟩ := List.getElem?_of_mem hq
      rw [List.getElem?_take] at hi
      split at hi
      · obtain ⟨k, h1, h2⟩ := hk.get i t0 w0 hi
        obtain ⟨t', g1, g2, g3, -⟩ := key h1
        rw [hi] at g1
        cases g1
        exact g3.1 (hp.before i k w0 h1 (by assumption))
      · cases hi
    · obtain ⟨t0, w0⟩ := q
      obtain ⟨i, hi⟩ := List.getElem?_of_mem hq
      rw [List.getElem?_drop] at hi
      obtain ⟨k, h1, h2⟩ := hk.get (p + i) t0 w0 hi
      obtain ⟨t', g1, g2, g3, -⟩ := key h1
      rw [hi] at g1
      cases g1
      have hn := hp.after (p + i) k w0 h1 (by omega)
      rcases K.total g2 ht with h | h | h
      · rw [g3.2 h] at hn; cases hn
      · exact absurd (List.mem_of_getElem? hi) (h ▸ hab w0)
      · exact h
  · have : ∃ w, (t, w) ∈ l := by by_contra hc; exact hab (fun w hw => hc ⟨w, hw⟩)
    obtain ⟨w, hw⟩ := this
    obtain ⟨i, hi⟩ := List.getElem?_of_mem hw
    obtain ⟨k, h1, h2⟩ := hk.get i t w hi
    obtain ⟨t', g1, g2, g3, g4⟩ := key h1
    rw [hi] at g1
    cases g1
    have hpi : p ≤ i := by
      by_contra hc
      exact K.irrefl ht (g3.1 (hp.before i k w h1 (by omega)))
    have : p = i := by
      by_contra hc
      have hlt : p < ps.length := by have := (List.getElem?_eq_some_iff.1 h1).1; omega
      obtain ⟨t2, b1, b2, b3, -⟩ := key (List.getElem?_eq_getElem hlt)
      have hn := hp.after p _ _ (List.getElem?_eq_getElem hlt) (le_refl _)
      rw [b3.2 (ascending_get hl (by omega) b1 hi)] at hn
      cases hn
    subst this
    refine .inl ⟨w, k, hi, h1, ?_⟩
    by_contra hc
    exact g4.1 (by simpa using hc) rfl

theorem ascending_insert [Env α] {K : KeyOrder α} {l : List (Item α × V α)} (h : Ascending K l) {t : Item α} (ht : K.Key t) (w : V α) {p : Nat}
    (h1 : ∀ q ∈ l.take p, K.lt q.1 t) (h2 : ∀ q ∈ l.drop p, K.lt t q.1) : Ascending K (l.take p ++ (t, w) :: l.drop p) := by
  refine ⟨fun q hq => ?_, ?_⟩
  · rcases List.mem_append.1 hq with hq | hq
    · exact h.1 q (List.mem_of_mem_take hq)
    · rcases List.mem_cons.1 hq with rfl | hq
      · exact ht
      · exact h.1 q (List.mem_of_mem_drop hq)
  · refine List.pairwise_append.2 ⟨h.2.take, List.pairwise_cons.2 ⟨fun q hq => h2 q hq, h.2.drop⟩, fun q hq r hr => ?_⟩
    rcases List.mem_cons.1 hr with rfl | hr
    · exact h1 q hq
    · exact K.trans (h.1 q (List.mem_of_mem_take hq)) ht (h.1 r (List.mem_of_mem_drop hr)) (h1 q hq) (h2 r hr)

theorem updated_insert {l : List (Item α × V α)} {t : Item α} (h : Absent l t) (w : V α) (p : Nat) : Updated l (l.take p ++ (t, w) :: l.drop p) t w := by
  intro u x
  have hm : (u, x) ∈ l.take p ++ (t, w) :: l.drop p ↔ (u = t ∧ x = w) ∨ (u, x) ∈ l := by
    conv_rhs => rw [← List.take_append_drop p l]
    simp only [List.mem_append, List.mem_cons, Prod.mk.injEq]
    tauto
  rw [hm]
  constructor
  · rintro (h1 | h1)
    · exact .inl h1
    · by_cases hu : u = t
      · exact absurd (hu ▸ h1) (h x)
      · exact .inr ⟨hu, h1⟩
  · rintro (h1 | ⟨-, h1⟩)
    · exact .inl h1
    · exact .inr h1

theorem ascending_set [Env α] {K : KeyOrder α} {l : List (Item α × V α)} (h : Ascending K l) {t : Item α} {w : V α} {p : Nat}
    (hp : l[p]? = some (t, w)) (w' : V α) : Ascending K (l.set p (t, w')) := by
  have hlt := (List.getElem?_eq_some_iff.1 hp).1
  have hm : (l.set p (t, w')).map Prod.fst = l.map Prod.fst := by
    rw [List.map_set]
    refine List.ext_getElem? fun i => ?_
    by_cases hip : p = i
    · subst hip
      rw [List.getElem?_set_self (by simpa using hlt), List.getElem?_map, hp]; rfl
    · rw [List.getElem?_set_ne hip]
  constructor
  · intro q hq
    have : q.1 ∈ l.map Prod.fst := hm ▸ List.mem_map.2 ⟨q, hq, rfl⟩
    obtain ⟨r, hr, e⟩ := List.mem_map.1 this
    rw [← e]; exact h.1 r hr
  · have : (l.map Prod.fst).Pairwise K.lt := List.pairwise_map.2 h.2
    rw [← hm] at this
    exact List.pairwise_map.1 this

theorem updated_set [Env α] {K : KeyOrder α} {l : List (Item α × V α)} (h : Ascending K l) {t : Item α} {w : V α} {p : Nat}
    (hp : l[p]? = some (t, w)) (w' : V α) : Updated l (l.set p (t, w')) t w' := by
  have hlt := (List.getElem?_eq_some_iff.1 hp).1
  intro u x
  constructor
  · intro hm
    obtain ⟨i, hi⟩ := List.getElem?_of_mem hm
    by_cases hip : p = i
    · subst hip
      rw [List.getElem?_set_self hlt] at hi
      cases hi
      exact .inl ⟨rfl, rfl⟩
    · rw [List.getElem?_set_ne hip] at hi
      refine .inr ⟨?_, List.mem_of_getElem? hi⟩
      rintro rfl
      rcases Nat.lt_or_gt_of_ne hip with hh | hh
      · exact K.irrefl (h.1 _ (List.mem_of_getElem? hp)) (ascending_get (p := (_, w)) (q := (_, x)) h hh hp hi)
      · exact K.irrefl (h.1 _ (List.mem_of_getElem? hp)) (ascending_get (p := (_, x)) (q := (_, w)) h hh hi hp)
  · rintro (⟨rfl, rfl⟩ | ⟨hu, hm⟩)
    · exact List.mem_of_getElem? (i := p) (List.getElem?_set_self hlt)
    · obtain ⟨i, hi⟩ := List.getElem?_of_mem hm
      refine List.mem_of_getElem? (i := i) ?_
      rw [List.getElem?_set_ne]
      · exact hi
      · rintro rfl
        rw [hp] at hi
        cases hi
        exact hu rfl

theorem MA.key_live {s : State α} {own : List Addr} {n a : Nat} {ps : List (V α × V α)} {cells : List (Cell α)} (h : MA s own n a ps cells)
    {i : Nat} {k u : V α} (hi : ps[i]? = some (k, u)) : ∀ b ∈ k.ptr.toList, Live s.mem b := fun b hb =>
  h.inv.cell_live h.is (List.mem_of_getElem? (h.elem i k u hi)) (by simp only [Cell.ptrs, List.mem_append]; exact .inl hb)

theorem MA.val_live {s : State α} {own : List Addr} {n a : Nat} {ps : List (V α × V α)} {cells : List (Cell α)} (h : MA s own n a ps cells)
    {i : Nat} {k u : V α} (hi : ps[i]? = some (k, u)) : ∀ b ∈ u.ptr.toList, Live s.mem b := fun b hb =>
  h.inv.cell_live h.is (List.mem_of_getElem? (h.elem i k u hi)) (by simp only [Cell.ptrs, List.mem_append]; exact .inr hb)

/-- Entries stay entries as long as the pairs do. -/
theorem MK.oth [Env α] {K : KeyOrder α} {m1 m2 : List (Option (Obj α))} {stk1 stk2 : List (V α)} {P : Addr → Prop} {a j : Nat} {cells : List (Cell α)}
    {l : List (Item α × V α)} {ps : List (V α × V α)} (h : MK ⟨m1, stk1⟩ l ps) (hl : Ascending K l) (hp : ∀ b, P b → b = a)
    (ha : Is m1 a .pair j cells) (ho : Oth P m1 m2) (hv : ∀ (i : Nat) (k u : V α), ps[i]? = some (k, u) → ∀ b ∈ k.ptr.toList, Live m2 b) :
    MK ⟨m2, stk2⟩ l ps :=
  ⟨h.len, fun i t w hi => by
    obtain ⟨k, h1, h2⟩ := h.get i t w hi
    exact ⟨k, h1, shown_oth K hp ha ho (hl.1 _ (List.mem_of_getElem? hi)) h2 (hv i k w h1)⟩⟩

theorem MK.insert {s : State α} {l : List (Item α × V α)} {ps : List (V α × V α)} (h : MK s l ps) {t : Item α} {v : V α} (ht : t.Shown s v) (w : V α)
    {p : Nat} (hp : p ≤ ps.length) : MK s (l.take p ++ (t, w) :: l.drop p) (ps.take p ++ (v, w) :: ps.drop p) := by
  have hlen := h.len
  refine ⟨by simp only [List.length_append, List.length_cons, List.length_take, List.length_drop]; omega, fun i u x hi => ?_⟩
  have hl1 : (l.take p).length = p := by rw [List.length_take]; omega
  have hl2 : (ps.take p).length = p := by rw [List.length_take]; omega
  by_cases h1 : i < p
  · rw [List.getElem?_append_left (by omega), List.getElem?_take, if_pos h1] at hi
    obtain ⟨k, h2, h3⟩ := h.get i u x hi
    exact ⟨k, by rw [List.getElem?_append_left (by omega), List.getElem?_take, if_pos h1]; exact h2, h3⟩
  · rw [List.getElem?_append_right (by omega), hl1] at hi
    rw [List.getElem?_append_right (by omega), hl2]
    by_cases h2 : i = p
    · subst h2
      rw [Nat.sub_self, List.getElem?_cons_zero] at hi ⊢
      cases hi
      exact ⟨v, rfl, ht⟩
    · rw [show i - p = i - p - 1 + 1 by omega, List.getElem?_cons_succ, List.getElem?_drop] at hi ⊢
      exact h.get _ u x hi

theorem MK.set {s : State α} {l : List (Item α × V α)} {ps : List (V α × V α)} (h : MK s l ps) {t : Item α} {k u w : V α} {p : Nat}
    (hl : l[p]? = some (t, u)) (hp : ps[p]? = some (k, u)) : MK s (l.set p (t, w)) (ps.set p (k, w)) := by
  refine ⟨by simp [h.len], fun i t' x hi => ?_⟩
  by_cases hip : p = i
  · subst hip
    rw [List.getElem?_set_self (List.getElem?_eq_some_iff.1 hl).1] at hi
    cases hi
    obtain ⟨k', h1, h2⟩ := h.get p t u hl
    rw [hp] at h1
    cases h1
    exact ⟨k, List.getElem?_set_self (List.getElem?_eq_some_iff.1 hp).1, h2⟩
  · rw [List.getElem?_set_ne hip] at hi ⊢
    exact h.get i t' x hi

/-- `m[v]`. -/
theorem indexKey_tot [Env α] (K : KeyOrder α) {s : State α} {own : List Addr} {n a : Nat} {l : List (Item α × V α)} {ps : List (V α × V α)}
    {cells : List (Cell α)} {v : V α} (h : MA s (v.ptr.toList ++ own) n a ps cells) (hk : MK s l ps) (hl : Ascending K l) {t : Item α} (ht : K.Key t)
    (hv : t.Shown s v) (hf : l.length + 1 ≤ 2 ^ 30) :
    ∃ mem' p l' ps' cells' w, mapIndex (.slot n) v s = .ok (.ref a p) { s with mem := mem' } ∧ MA { s with mem := mem' } (a :: own) n a ps' cells' ∧
      Oth (· = a) s.mem mem' ∧ MK { s with mem := mem' } l' ps' ∧ Ascending K l' ∧ l'[p]? = some (t, w) ∧
      ((l' = l ∧ ps' = ps ∧ Kept s.mem mem') ∨ (Absent l t ∧ w = .nil ∧ l' = l.take p ++ (t, .nil) :: l.drop p)) := by
  have h1' := h.push_stk
  have hk1 : MK ⟨s.mem, s.stk ++ [v]⟩ l ps := MK.oth (P := fun _ => False) (a := a) hk hl (fun _ h => absurd h id) h.is (Oth.refl _ _) (fun i k u hi => h.key_live hi)
  have vlive : ∀ b ∈ v.ptr.toList, Live s.mem b := fun b hb => h.inv.own_live (List.mem_append_left _ hb)
  have s1' : t.Shown ⟨s.mem, s.stk ++ [v]⟩ v := shown_oth K (P := fun _ => False) (fun _ h => absurd h id) h.is (Oth.refl _ _) ht hv vlive
  obtain ⟨p, e2, hp, hc⟩ := find_tot K h1' hk1 hl ht s1'
  rcases hc with ⟨w, k, c1, c2, c3⟩ | ⟨c1, c2, c3, c4⟩
  · obtain ⟨m2, e3, h3, k3⟩ := mapIndex_has h e2 c2 c3
    exact ⟨m2, p, l, ps, cells, w, e3, h3, k3.oth,
      MK.oth (P := fun _ => False) (a := a) hk hl (fun _ h => absurd h id) h.is k3 (fun i k u hi => h3.key_live hi), hl, c1, .inl ⟨rfl, rfl, k3⟩⟩
  · have hlen := hk.len
    obtain ⟨m2, cells', e3, h3, k3⟩ := mapIndex_new h e2 hp c2 (shown_plain K ht hv) (by omega)
    have hl' := ascending_insert hl ht .nil c3 c4
    refine ⟨m2, p, _, _, cells', .nil, e3, h3, k3, ?_, hl', ?_, .inr ⟨c1, rfl, rfl⟩⟩
    · exact MK.oth (K := K) (a := a) (hk1.insert s1' .nil hp) hl' (fun _ h => h) h.is k3 (fun i k u hi => h3.key_live hi)
    · rw [List.getElem?_append_right (by simp), List.length_take, Nat.min_eq_left (by omega), Nat.sub_self]
      rfl

/-- Evaluating `m[k]`. -/
theorem evalKey_tot [Env α] (K : KeyOrder α) {s : State α} {own : List Addr} {n a : Nat} {l : List (Item α × V α)} {ps : List (V α × V α)}
    {cells : List (Cell α)} (h : MA s own n a ps cells) (hk : MK s l ps) (hl : Ascending K l) {t : Item α} (ht : K.Key t) {e : Exp α} (he : KeyExp s e t)
    (hf : l.length + 1 ≤ 2 ^ 30) :
    ∃ mem' p l' ps' cells' w, eval (.key n e) s = .ok (.ref a p) { s with mem := mem' } ∧ MA { s with mem := mem' } (a :: own) n a ps' cells' ∧
      Oth (· = a) s.mem mem' ∧ MK { s with mem := mem' } l' ps' ∧ Ascending K l' ∧ l'[p]? = some (t, w) ∧
      ((l' = l ∧ ps' = ps ∧ Kept s.mem mem') ∨ (Absent l t ∧ w = .nil ∧ l' = l.take p ++ (t, .nil) :: l.drop p)) := by
  obtain ⟨m1, v, e1, i1, k1, s1⟩ := key_tot K h.inv ht he
  have h1 : MA { s with mem := m1 } (v.ptr.toList ++ own) n a ps cells := h.own i1 k1
  have hk1 : MK ⟨m1, s.stk⟩ l ps := MK.oth (P := fun _ => False) (a := a) hk hl (fun _ h => absurd h id) h.is k1 (fun i k u hi => h1.key_live hi)
  obtain ⟨m2, p, l', ps', cells', w, e2, r1, r2, r3, r4, r5, r6⟩ := indexKey_tot K h1 hk1 hl ht s1 hf
  refine ⟨m2, p, l', ps', cells', w, (bind_eq e1).trans e2, r1, k1.oth.trans r2, r3, r4, r5, ?_⟩
  rcases r6 with ⟨c1, c2, c3⟩ | c
  · exact .inl ⟨c1, c2, k1.trans c3⟩
  · exact .inr c

/-- Assignment to an entry. -/
theorem assignEntry_tot [Env α] (K : KeyOrder α) {m2 : List (Option (Obj α))} {stk : List (V α)} {own : List Addr} {n a p : Nat} {l : List (Item α × V α)} {ps : List (V α × V α)}
    {cells : List (Cell α)} (h : MA ⟨m2, stk⟩ (a :: own) n a ps cells) (hk : MK ⟨m2, stk⟩ l ps) (hl : Ascending K l) {t : Item α} {u : V α} (hlp : l[p]? = some (t, u))
    {v w : V α} (hv : ∀ b ∈ v.ptr.toList, b ∈ stkPtrs stk) (hd : Deno m2 v w) (hne : v ≠ .ref a p) :
    ∃ m3 ps' cells', withVar (.ref a p) (fun lr => attachV v >>= fun _ => assign lr v) ⟨m2, stk⟩ = .ok () ⟨m3, stk⟩ ∧ MA ⟨m3, stk⟩ own n a ps' cells' ∧
      MK ⟨m3, stk⟩ (l.set p (t, w)) ps' ∧ Oth (· = a) m2 m3 := by
  obtain ⟨kv, hpp, -⟩ := hk.get p t u hlp
  have hcell := h.elem p kv u hpp
  have hcl := h.clean _ (List.mem_of_getElem? hcell)
  obtain ⟨m3, e3, i3, h3, k3⟩ := refAssign_tot (s := ⟨m2, stk⟩) (own := own) (v := v) (w := w) h.inv h.stk h.is (.inr rfl) hcell rfl hcl.2 hv hd hne
  have hplt : p < ps.length := (List.getElem?_eq_some_iff.1 hpp).1
  have h4 : MA ⟨m3, stk⟩ own n a (ps.set p (kv, w)) (cells.set p (.pair kv w)) := by
    refine ⟨i3, h.slot, ?_, fun i x y hi => ?_, set_clean h.clean ⟨hcl.1, hd.clean⟩⟩
    · rw [List.length_set]
      exact h3
    · by_cases hip : p = i
      · subst hip
        rw [List.getElem?_set_self hplt] at hi
        cases hi
        exact List.getElem?_set_self (List.getElem?_eq_some_iff.1 hcell).1
      · rw [List.getElem?_set_ne hip] at hi ⊢
        exact h.elem i x y hi
  have hl4 := ascending_set hl hlp w
  exact ⟨m3, _, _, e3, h4, MK.oth (K := K) (a := a) (hk.set hlp hpp) hl4 (fun _ h => h) h.is k3 (fun i k u hi => h4.key_live hi), k3⟩

/-- How the entries of a map change. -/
structure Changed [Env α] (K : KeyOrder α) (l l' : List (Item α × V α)) (t : Item α) (w : V α) : Prop where
  upd : Updated l l' t w
  asc : Ascending K l'
  old : ∀ p u, l[p]? = some (t, u) → l' = l.set p (t, w)
  new : Absent l t → ∃ p, p ≤ l.length ∧ l' = l.take p ++ (t, w) :: l.drop p

theorem Changed.mk' [Env α] {K : KeyOrder α} {l l' : List (Item α × V α)} {t : Item α} {u : V α} {p : Nat} (ht : K.Key t) (hl' : Ascending K l')
    (hlp : l'[p]? = some (t, u)) (hc : l' = l ∨ (Absent l t ∧ l' = l.take p ++ (t, .nil) :: l.drop p)) (w : V α) : Changed K l (l'.set p (t, w)) t w := by
  have hnew : ∀ {l : List (Item α × V α)}, (l.take p ++ (t, V.nil) :: l.drop p)[p]? = some (t, u) →
      p ≤ l.length ∧ (l.take p ++ (t, V.nil) :: l.drop p).set p (t, w) = l.take p ++ (t, w) :: l.drop p := fun {l} hlp => by
    have hple : p ≤ l.length := by
      have := (List.getElem?_eq_some_iff.1 hlp).1
      simp only [List.length_append, List.length_cons, List.length_take, List.length_drop] at this
      omega
    refine ⟨hple, ?_⟩
    rw [List.set_append_right _ _ (by simp), List.length_take, Nat.min_eq_left hple, Nat.sub_self]
    rfl
  refine ⟨?_, ascending_set hl' hlp w, fun q u' hq => ?_, fun hab => ?_⟩
  · rcases hc with rfl | ⟨hab, rfl⟩
    · exact updated_set hl' hlp w
    · rw [(hnew hlp).2]
      exact updated_insert hab w p
  · rcases hc with rfl | ⟨hab, rfl⟩
    · have : p = q := by
        rcases Nat.lt_trichotomy p q with hh | hh | hh
        · exact absurd (ascending_get hl' hh hlp hq) (K.irrefl ht)
        · exact hh
        · exact absurd (ascending_get hl' hh hq hlp) (K.irrefl ht)
      rw [this]
    · exact absurd (List.mem_of_getElem? hq) (hab u')
  · rcases hc with rfl | ⟨-, rfl⟩
    · exact absurd (List.mem_of_getElem? hlp) (hab u)
    · exact ⟨p, hnew hlp⟩

/-- `m[k] = v`, after `v` has been evaluated. -/
theorem setKey_core [Env α] (K : KeyOrder α) {m1 : List (Option (Obj α))} {stk : List (V α)} {own : List Addr} {n a : Nat} {l : List (Item α × V α)} {ps : List (V α × V α)}
    {cells : List (Cell α)} {v w : V α} (h : MA ⟨m1, stk⟩ (v.ptr.toList ++ own) n a ps cells) (hk : MK ⟨m1, stk⟩ l ps) (hl : Ascending K l) {t : Item α}
    (ht : K.Key t) {k : Exp α} (he : KeyExp ⟨m1, stk⟩ k t) (hf : l.length + 1 ≤ 2 ^ 30)
    (hd : ∀ m2 ps' cells' l' p u, MA ⟨m2, stk ++ [v]⟩ (a :: own) n a ps' cells' → Oth (· = a) m1 m2 → MK ⟨m2, stk ++ [v]⟩ l' ps' → Ascending K l' →
      l'[p]? = some (t, u) → (l' = l ∨ (Absent l t ∧ l' = l.take p ++ (t, .nil) :: l.drop p)) → Deno m2 v w ∧ v ≠ .ref a p) :
    ∃ m4 ps' cells' l', withVar v (fun _ => eval (.key n k) >>= fun r => withVar r fun lr => attachV v >>= fun _ => assign lr v) ⟨m1, stk⟩ = .ok () ⟨m4, stk⟩ ∧
      MA ⟨m4, stk⟩ own n a ps' cells' ∧ MK ⟨m4, stk⟩ l' ps' ∧ Changed K l l' t w ∧ Oth (· = a) m1 m4 := by
  have h1 : MA ⟨m1, stk ++ [v]⟩ own n a ps cells := h.push_stk
  have hmk1 : MK ⟨m1, stk ++ [v]⟩ l ps := MK.oth (P := fun _ => False) (a := a) hk hl (fun _ h => absurd h id) h.is (Oth.refl _ _) (fun i k u hi => h.key_live hi)
  have upv : ∀ b ∈ v.ptr.toList, b ∈ stkPtrs (stk ++ [v]) := fun b hb => by rw [stkPtrs_append]; exact List.mem_append_right _ hb
  have hk1 : KeyExp ⟨m1, stk ++ [v]⟩ k t := by
    rcases he with hk | ⟨m, x, hk, hx, hs⟩
    · exact .inl hk
    · exact .inr ⟨m, x, hk, slot_append hx, shown_oth K (P := fun _ => False) (fun _ h => absurd h id) h.is (Oth.refl _ _) ht hs
        (fun b hb => h1.inv.stk_live (mem_stkPtrs (slot_append hx) hb))⟩
  obtain ⟨m2, p, l', ps', cells', u, e2, h2, k2, hmk2, hl', hlp, hcase⟩ := evalKey_tot K h1 hmk1 hl ht hk1 hf
  have hcase := hcase.imp (fun h => h.1) (fun h => And.intro h.1 h.2.2)
  obtain ⟨hd1, hd2⟩ := hd m2 ps' cells' l' p u h2 k2 hmk2 hl' hlp hcase
  obtain ⟨m3, ps3, cells3, e3, h3, hmk3, k3⟩ := assignEntry_tot K h2 hmk2 hl' hlp upv hd1 hd2
  obtain ⟨m4, e4, i4, k4⟩ := withVar_tot (s := ⟨m1, stk⟩) (v := v) (w := v) (m1 := m3) (b := ())
    (f := fun _ => eval (.key n k) >>= fun r => withVar r fun lr => attachV v >>= fun _ => assign lr v) ((bind_eq e2).trans e3) h3.inv
  have hch := Changed.mk' ht hl' hlp hcase w
  have h4 : MA ⟨m4, stk⟩ own n a ps3 cells3 := ⟨i4, h.slot, h3.is.kept k4 id (i4.stk_live h.stk), h3.elem, h3.clean⟩
  exact ⟨m4, ps3, cells3, _, e4, h4, MK.oth (P := fun _ => False) (a := a) hmk3 hch.asc (fun _ h => absurd h id) h3.is k4 (fun i k u hi => h4.key_live hi), hch, k2.trans (k3.trans k4.oth)⟩

/-- `m[k] = e`. -/
theorem setKey_tot [Env α] (K : KeyOrder α) {s : State α} (hr : Reach s) {n : Nat} {l : List (Item α × V α)} (h : MapOf K s n l) {t : Item α} (ht : K.Key t)
    {k e : Exp α} (hk : KeyExp s k t) (hu : Usable s n e) (hf : Fits l) :
    ∃ s' w l', run (.setKey n k e) s = .ok () s' ∧ Yields s s' e w ∧ MapOf K s' n l' ∧ Changed K l l' t w ∧ s'.stk = s.stk ∧ OthersSame s s' n := by
  have hf : l.length + 2 ≤ 2 ^ 30 := hf
  obtain ⟨own, a, ps, cells, hma, hmk⟩ := ma_of_entries hr h.1
  have ha : a < s.mem.length := lt_of_alive hma.is.choose_spec
  obtain ⟨m1, v, w, e1, i1, k1, d1, n1, y1⟩ := usable_tot hr hma.inv hma.slot hu
  have h1 : MA ⟨m1, s.stk⟩ (v.ptr.toList ++ own) n a ps cells := hma.own i1 k1
  have hmk1 : MK ⟨m1, s.stk⟩ l ps := MK.oth (P := fun _ => False) (a := a) hmk h.2 (fun _ h => absurd h id) hma.is k1 (fun i k u hi => h1.key_live hi)
  have hk1 : KeyExp ⟨m1, s.stk⟩ k t := by
    rcases hk with hk | ⟨m, x, hk, hx, hs⟩
    · exact .inl hk
    · exact .inr ⟨m, x, hk, hx, shown_oth K (P := fun _ => False) (fun _ h => absurd h id) hma.is k1 ht hs
        (fun b hb => h1.inv.stk_live (mem_stkPtrs hx hb))⟩
  have upv : ∀ b ∈ v.ptr.toList, b ∈ stkPtrs (s.stk ++ [v]) := fun b hb => by rw [stkPtrs_append]; exact List.mem_append_right _ hb
  obtain ⟨m4, ps', cells', l', e4, h4, hmk4, hch, k4⟩ := setKey_core K (w := w) h1 hmk1 h.2 ht hk1 (by omega) (fun m2 ps' cells' l' p u h2 k2 _ _ _ _ =>
    ⟨d1.kept k2 (fun b j hv hb => n1 j (by rw [hv]; subst hb; rfl)) (fun b hb => h2.inv.stk_live (upv b hb)), n1 p⟩)
  have hlast : ∀ b, w = .arr b → Live m4 b := fun b hb => by
    have : (t, w) ∈ l' := (hch.upd t w).2 (.inl ⟨rfl, rfl⟩)
    obtain ⟨i, hi⟩ := List.getElem?_of_mem this
    obtain ⟨kv, h5, -⟩ := hmk4.get i t w hi
    exact h4.val_live h5 b (by simp [hb, V.ptr])
  exact ⟨⟨m4, s.stk⟩, w, l', (bind_eq e1).trans e4, yields_kept y1 k4 ha hlast, ⟨h4.entries hmk4, hch.asc⟩, hch, rfl,
    oth_same hma.slot hma.is.live (k1.oth.trans k4)⟩

/-- `m[k] = m[j]`, with `j` in the map, and its entry not moved by `k`. -/
theorem setKey_own [Env α] (K : KeyOrder α) {s : State α} (hr : Reach s) {n : Nat} {l : List (Item α × V α)} (h : MapOf K s n l) {t u : Item α} (ht : K.Key t)
    (hu : K.Key u) {k j : Exp α} (hk : KeyExp s k t) (hj : KeyExp s j u) {w : V α} (hw : (u, w) ∈ l) (hne : t ≠ u) (hlt : Absent l t → K.lt u t) (hf : Fits l) :
    ∃ s' l', run (.setKey n k (.key n j)) s = .ok () s' ∧ MapOf K s' n l' ∧ Changed K l l' t w ∧ s'.stk = s.stk ∧ OthersSame s s' n := by
  have hf : l.length + 2 ≤ 2 ^ 30 := hf
  obtain ⟨own, a, ps, cells, hma, hmk⟩ := ma_of_entries hr h.1
  obtain ⟨m1, q, l1, ps1, cells1, w', e1, h1, k1, hmk1, hl1, hq, hc⟩ := evalKey_tot K hma hmk h.2 hu hj (by omega)
  rcases hc with ⟨rfl, rfl, k1'⟩ | ⟨hab, -, -⟩
  · have hww : w' = w := by
      obtain ⟨i, hi⟩ := List.getElem?_of_mem hw
      have : i = q := by
        rcases Nat.lt_trichotomy i q with hh | hh | hh
        · exact absurd (ascending_get hl1 hh hi hq) (K.irrefl hu)
        · exact hh
        · exact absurd (ascending_get hl1 hh hq hi) (K.irrefl hu)
      rw [this, hq] at hi
      cases hi
      rfl
    subst hww
    have hk1 : KeyExp ⟨m1, s.stk⟩ k t := by
      rcases hk with hk | ⟨m, x, hk, hx, hs⟩
      · exact .inl hk
      · exact .inr ⟨m, x, hk, hx, shown_oth K (P := fun _ => False) (fun _ h => absurd h id) hma.is k1' ht hs
          (fun b hb => h1.inv.stk_live (mem_stkPtrs hx hb))⟩
    obtain ⟨m4, ps', cells', l', e4, h4, hmk4, hch, k4⟩ := setKey_core K (v := .ref a q) (own := own) (w := w') h1 hmk1 hl1 ht hk1 (by omega)
      (fun m2 ps' cells' l' p x h2 k2 hmk2 hl' hp hc => by
        have hq' : l'[q]? = some (u, w') := by
          rcases hc with rfl | ⟨hab, rfl⟩
          · exact hq
          · by_cases hqp : q < p
            · rw [List.getElem?_append_left (by rw [List.length_take]; have := (List.getElem?_eq_some_iff.1 hq).1; omega), List.getElem?_take, if_pos hqp]
              exact hq
            · exfalso
              have hple : p ≤ l1.length := by have := (List.getElem?_eq_some_iff.1 hq).1; omega
              have : (l1.take p ++ (t, V.nil) :: l1.drop p)[q + 1]? = some (u, w') := by
                rw [List.getElem?_append_right (by rw [List.length_take]; omega), List.length_take, Nat.min_eq_left hple,
                  show q + 1 - p = q - p + 1 by omega, List.getElem?_cons_succ, List.getElem?_drop, show p + (q - p) = q by omega]
                exact hq
              exact K.irrefl hu (K.trans hu ht hu (hlt hab) (ascending_get hl' (show p < q + 1 by omega) hp this))
        obtain ⟨kv, hpq, -⟩ := hmk2.get q u w' hq'
        have hcell := h2.elem q kv w' hpq
        refine ⟨.var h2.is (.inr rfl) hcell rfl (h2.clean _ (List.mem_of_getElem? hcell)).2, fun hr => ?_⟩
        cases hr
        rw [hp] at hq'
        cases hq'
        exact hne rfl)
    exact ⟨⟨m4, s.stk⟩, l', (bind_eq e1).trans e4, ⟨h4.entries hmk4, hch.asc⟩, hch, rfl, oth_same hma.slot hma.is.live (k1.trans k4)⟩
  · exact absurd hw (hab w)

/-- Evaluating `m.at(k)`. -/
theorem evalAt_tot [Env α] (K : KeyOrder α) {s : State α} {own : List Addr} {n a : Nat} {l : List (Item α × V α)} {ps : List (V α × V α)}
    {cells : List (Cell α)} (h : MA s own n a ps cells) (hk : MK s l ps) (hl : Ascending K l) {t : Item α} (ht : K.Key t) {e : Exp α} (he : KeyExp s e t) :
    ∃ mem' v, eval (.atKey n e) s = .ok v { s with mem := mem' } ∧ MA { s with mem := mem' } (v.ptr.toList ++ own) n a ps cells ∧ Kept s.mem mem' ∧
      ((Absent l t ∧ v = .nil) ∨ ∃ p w, v = .ref a p ∧ l[p]? = some (t, w)) := by
  obtain ⟨m1, v, e1, i1, k1, s1⟩ := key_tot K h.inv ht he
  have h1 : MA { s with mem := m1 } (v.ptr.toList ++ own) n a ps cells := h.own i1 k1
  have h1' : MA ⟨m1, s.stk ++ [v]⟩ own n a ps cells := h1.push_stk
  have hk1 : MK ⟨m1, s.stk ++ [v]⟩ l ps := MK.oth (P := fun _ => False) (a := a) hk hl (fun _ h => absurd h id) h.is k1 (fun i k u hi => h1.key_live hi)
  have vlive : ∀ b ∈ v.ptr.toList, Live m1 b := fun b hb => i1.own_live (List.mem_append_left _ hb)
  have s1' : t.Shown ⟨m1, s.stk ++ [v]⟩ v := shown_oth K (P := fun _ => False) (fun _ h => absurd h id) h1.is (Oth.refl _ _) ht s1 vlive
  obtain ⟨p, e2, hp, hc⟩ := find_tot K h1' hk1 hl ht s1'
  rcases hc with ⟨w, k, c1, c2, c3⟩ | ⟨c1, c2, -, -⟩
  · obtain ⟨m2, e3, h3, k3⟩ := mapAt_has h1' e2 c2 c3
    obtain ⟨m3, e4, i4, k4⟩ := withVar_tot (s := ⟨m1, s.stk⟩) (v := v) (w := v) (m1 := m2) (b := .ref a p)
      (f := fun _ => readLoc (.slot n) >>= fun t => mapAt t v) ((bind_eq (readSlot h1'.slot)).trans e3) h3.inv
    exact ⟨m3, .ref a p, (bind_eq e1).trans e4, ⟨i4, h.slot, h3.is.kept k4 id (i4.stk_live h.stk), h.elem, h.clean⟩, (k1.trans k3).trans k4, .inr ⟨p, w, rfl, c1⟩⟩
  · have e3 := mapAt_not h1' e2 c2
    obtain ⟨m3, e4, i4, k4⟩ := withVar_tot (s := ⟨m1, s.stk⟩) (v := v) (w := v) (m1 := m1) (b := .nil)
      (f := fun _ => readLoc (.slot n) >>= fun t => mapAt t v) ((bind_eq (readSlot h1'.slot)).trans e3) h1'.inv
    exact ⟨m3, .nil, (bind_eq e1).trans e4, ⟨i4, h.slot, h1'.is.kept k4 id (i4.stk_live h.stk), h.elem, h.clean⟩, k1.trans k4, .inl ⟨c1, rfl⟩⟩

/-- A new empty map. -/
def emptyMap : Obj α := ⟨.pair, 0, 1, List.replicate 8 (freshCell .pair)⟩

theorem newMap_run [Env α] (s : State α) :
    (newHeap 0 (some .pair) : M α Addr) s = .ok s.mem.length { s with mem := s.mem ++ [some emptyMap] } := by
  have h8 : Alloc.allocSize 0 = .ok 8 := by
    simp [Alloc.allocSize, Alloc.minSize, Alloc.shiftLoop]
  have hres : resizeObj (⟨.pair, 0, 1, []⟩ : Obj α) 0 = .ok emptyMap := by
    unfold resizeObj
    simp only [if_neg (show ¬ (Kind.pair = Kind.char) by decide)]
    rw [show ((0 : Nat) : Int) = 0 from rfl, h8, Outcome.bind_ok]
    rfl
  unfold newHeap
  have : liftO (resizeObj (⟨.pair, 0, 1, []⟩ : Obj α) 0) s = .ok emptyMap s := by rw [hres]; rfl
  exact (bind_eq this).trans rfl

theorem makeMap_nil [Env α] {m : List (Option (Obj α))} {stk : List (V α)} {x : Nat} (h : stk[x]? = some .nil) :
    makeMap (.slot x) ⟨m, stk⟩ = .ok () ⟨m ++ [some emptyMap], stk.set x (.arr m.length)⟩ := by
  unfold makeMap
  refine (bind_eq (readSlot h)).trans ?_
  refine (bind_eq (newMap_run _)).trans ?_
  simp only [writeLoc]
  rw [if_pos (List.getElem?_eq_some_iff.1 h).1]

/-- `m[v]` of a nil variable is that of an empty map. -/
theorem mapIndex_nil [Env α] {m : List (Option (Obj α))} {stk : List (V α)} {x : Nat} (h : stk[x]? = some .nil) (v : V α) :
    mapIndex (.slot x) v ⟨m, stk⟩ = mapIndex (.slot x) v ⟨m ++ [some emptyMap], stk.set x (.arr m.length)⟩ := by
  have hx : x < stk.length := (List.getElem?_eq_some_iff.1 h).1
  have hs : (stk ++ [v])[x]? = some .nil := slot_append h
  have hs' : (stk.set x (.arr m.length) ++ [v])[x]? = some (.arr m.length) := by
    rw [List.getElem?_append_left (by simpa using hx), List.getElem?_set_self hx]
  have e1 := makeMap_nil (m := m) hs
  rw [List.set_append_left _ _ hx] at e1
  have e2 : makeMap (.slot x) ⟨m ++ [some (emptyMap : Obj α)], stk.set x (.arr m.length) ++ [v]⟩ =
      .ok () ⟨m ++ [some (emptyMap : Obj α)], stk.set x (.arr m.length) ++ [v]⟩ := by
    unfold makeMap
    exact (bind_eq (readSlot hs')).trans rfl
  have d1 : dereference (.slot x) ⟨m, stk ++ [v]⟩ = .ok (.slot x) ⟨m, stk ++ [v]⟩ := by
    unfold dereference
    exact (bind_eq (readSlot hs)).trans rfl
  have d2 := dereference_arr (readSlot (s := ⟨m ++ [some (emptyMap : Obj α)], stk.set x (.arr m.length) ++ [v]⟩) hs')
  unfold mapIndex withVar
  simp only [List.length_set]
  rw [bind_eq d1, bind_eq d2, bind_eq e1, bind_eq e2]

/-- Evaluating an item. -/
theorem item_tot [Env α] {s : State α} {own : List Addr} (hi : Inv s own) {t : Item α} (hw : t.Writable s) :
    ∃ mem' v, eval t.exp s = .ok v { s with mem := mem' } ∧ Inv { s with mem := mem' } (v.ptr.toList ++ own) ∧ Kept s.mem mem' ∧
      ¬ v.IsRef ∧ t.Shown { s with mem := mem' } v := by
  cases t with
  | nil => exact ⟨s.mem, .nil, rfl, by simpa [V.ptr] using hi, Oth.refl _ _, id, rfl⟩
  | num k x => exact ⟨s.mem, .num k x, newNum_scalar hw x s, by simpa [V.ptr] using hi, Oth.refl _ _, id, rfl⟩
  | str cs =>
    have hf : cs.length + 2 ≤ 2 ^ 30 := hw
    obtain ⟨ob, h1, h2, h3, h4⟩ := newStr_run cs s (by omega)
    have i1 := (eval_keep (lk := false) (Exp.str cs)).inv (own := own) hi h1
    refine ⟨_, _, h1, i1, ⟨by simp, fun b o' _ hb ho => ?_⟩, id, s.mem.length, ob, rfl, by simp, h3, h2.size, h2.elem⟩
    rw [List.getElem?_append_left hb] at ho
    exact ⟨o', ho, rfl, rfl, rfl⟩
  | name m =>
    obtain ⟨v, hv, hp⟩ := hw
    obtain ⟨m1, e1, i1, k1, -⟩ := attach_tot (v := v) hi (fun b hb => hi.stk_live (mem_stkPtrs hv hb))
    refine ⟨m1, v, ?_, i1, k1, plain_iff.1 hp, hv⟩
    refine (bind_eq (readSlot hv)).trans ?_
    unfold copyV
    exact (bind_eq e1).trans rfl
  | val v => exact absurd hw id

/-- `m[k] = e` of a nil variable. -/
theorem setKey_nil [Env α] (K : KeyOrder α) {s : State α} (hr : Reach s) {n : Nat} (h : s.stk[n]? = some .nil) {t u : Item α} (ht : K.Key t)
    {k : Exp α} (hk : KeyExp s k t) (hu : u.Writable s) :
    ∃ s' b w, run (.setKey n k u.exp) s = .ok () s' ∧ s'.stk = s.stk.set n (.arr b) ∧ s.mem.length ≤ b ∧ MapOf K s' n [(t, w)] ∧
      u.Shown { s' with stk := s.stk } w ∧ AllSame s s' := by
  obtain ⟨own, hi⟩ := reach_inv hr
  have hlt : n < s.stk.length := (List.getElem?_eq_some_iff.1 h).1
  obtain ⟨m1, v, e1, i1, k1, hv, s1⟩ := item_tot hi hu
  have i1' : Inv ⟨m1, s.stk ++ [v]⟩ own := Inv.push (s := ⟨m1, s.stk⟩) i1
  have hkeep : ∀ {m1 m2 : List (Option (Obj α))} {stk1 stk2 : List (V α)} {t : Item α} {x : V α}, K.Key t → Kept m1 m2 → t.Shown ⟨m1, stk1⟩ x →
      (∀ b ∈ x.ptr.toList, Live m2 b) → t.Shown ⟨m2, stk2⟩ x := by
    intro m1 m2 stk1 stk2 t x ht hkp hs hl
    rcases K.simple ht with ⟨k, y, rfl, -⟩ | ⟨cs, rfl, -⟩
    · exact hs
    · obtain ⟨b, o, rfl, h1, h2, h3, h4⟩ := hs
      obtain ⟨rc, g⟩ := Is.kept (k := o.kind) (n := o.size) (cells := o.cells) ⟨o.rc, h1⟩ hkp id (hl b (by simp [V.ptr]))
      exact ⟨b, _, rfl, g, h2, h3, h4⟩
  have hk1 : KeyExp ⟨m1, s.stk ++ [v]⟩ k t := by
    rcases hk with hk | ⟨m, x, hk, hx, hs⟩
    · exact .inl hk
    · exact .inr ⟨m, x, hk, slot_append hx, hkeep ht k1 hs (fun b hb => i1'.stk_live (mem_stkPtrs (slot_append hx) hb))⟩
  obtain ⟨m2, kv, e2, i2, k2, s2⟩ := key_tot K i1' ht hk1
  have hnil : (s.stk ++ [v])[n]? = some .nil := slot_append h
  have i3 := (makeMap_keep (lk := false) (.slot n)).inv (own := kv.ptr.toList ++ own) (pre := []) i2 (makeMap_nil hnil)
  rw [List.set_append_left _ _ hlt] at i3
  have hslot : (s.stk.set n (.arr m2.length) ++ [v])[n]? = some (.arr m2.length) := by
    rw [List.getElem?_append_left (by simpa using hlt), List.getElem?_set_self hlt]
  have k3 : Kept m2 (m2 ++ [some emptyMap]) := ⟨by simp, fun b o _ hb ho => by
    rw [List.getElem?_append_left hb] at ho
    exact ⟨o, ho, rfl, rfl, rfl⟩⟩
  have h3 : MA ⟨m2 ++ [some emptyMap], s.stk.set n (.arr m2.length) ++ [v]⟩ (kv.ptr.toList ++ own) n m2.length [] (List.replicate 8 (freshCell .pair)) :=
    ⟨i3, hslot, ⟨1, by simp [emptyMap]⟩, fun i k u hi => by simp at hi, fun c hc => by rw [List.eq_of_mem_replicate hc]; exact fresh_clean _⟩
  have hm3 : MK ⟨m2 ++ [some emptyMap], s.stk.set n (.arr m2.length) ++ [v]⟩ [] [] := ⟨rfl, fun i t w hi => by simp at hi⟩
  have s3 : t.Shown ⟨m2 ++ [some emptyMap], s.stk.set n (.arr m2.length) ++ [v]⟩ kv :=
    hkeep ht k3 s2 (fun b hb => i3.own_live (by simpa using Or.inl (by simpa using hb)))
  obtain ⟨m4, p, l', ps', cells', u0, e4, h4, k4, hmk4, hl4, hp4, hc4⟩ := indexKey_tot K h3 hm3 ⟨fun p hp => (by simp at hp), List.Pairwise.nil⟩ ht s3 (by simp)
  have upv : ∀ b ∈ v.ptr.toList, b ∈ stkPtrs (s.stk.set n (.arr m2.length) ++ [v]) := fun b hb => by rw [stkPtrs_append]; exact List.mem_append_right _ hb
  obtain ⟨m5, ps5, cells5, e5, h5, hmk5, k5⟩ := assignEntry_tot K h4 hmk4 hl4 hp4 upv (.self hv) (fun e => hv (by rw [e]; trivial))
  obtain ⟨m6, e6, i6, k6⟩ := detach_tot (s := ⟨m5, s.stk.set n (.arr m2.length)⟩) (v := v) h5.inv.pop
  have hchg := Changed.mk' (l := []) ht hl4 hp4 (hc4.imp (fun h => h.1) (fun h => ⟨h.1, h.2.2⟩)) v
  have hset : (s.stk.set n (.arr m2.length))[n]? = some (V.arr m2.length) := List.getElem?_set_self hlt
  have h6 : MA ⟨m6, s.stk.set n (.arr m2.length)⟩ own n m2.length ps5 cells5 :=
    ⟨i6, hset, h5.is.kept k6 id (i6.stk_live (mem_stkPtrs hset (by simp [V.ptr]))), h5.elem, h5.clean⟩
  have hmk6 : MK ⟨m6, s.stk.set n (.arr m2.length)⟩ (l'.set p (t, v)) ps5 :=
    MK.oth (P := fun _ => False) (a := m2.length) hmk5 hchg.asc (fun _ h => absurd h id) h5.is k6 (fun i k u hi => h6.key_live hi)
  have hl6 : l'.set p (t, v) = [(t, v)] := by
    obtain ⟨q, -, hq⟩ := hchg.new (fun w hw => by simp at hw)
    rw [hq]; simp
  rw [hl6] at hmk6
  have hlast : ∀ b ∈ v.ptr.toList, Live m6 b := fun b hb => by
    obtain ⟨kv', g1, -⟩ := hmk6.get 0 t v rfl
    exact h6.val_live g1 b hb
  have kall : Oth (· = m2.length) m1 m6 := ((k2.oth.trans k3.oth).trans (k4.trans k5)).trans k6.oth
  have hlen2 : m1.length ≤ m2.length := k2.1
  have hlen1 : s.mem.length ≤ m1.length := k1.1
  refine ⟨⟨m6, s.stk.set n (.arr m2.length)⟩, m2.length, v, ?_, rfl, le_trans hlen1 hlen2, ⟨h6.entries hmk6, hl6 ▸ hchg.asc⟩, ?_, ?_⟩
  · refine (bind_eq (m := eval u.exp) e1).trans ?_
    refine withVar_run' (stk1 := s.stk.set n (.arr m2.length)) (w := v) (mem1 := m5) ?_ (by simp) e6
    have : eval (.key n k) ⟨m1, s.stk ++ [v]⟩ = .ok (.ref m2.length p) ⟨m4, s.stk.set n (.arr m2.length) ++ [v]⟩ := by
      refine (bind_eq (m := eval k) e2).trans ?_
      refine (mapIndex_nil hnil kv).trans ?_
      rw [List.set_append_left _ _ hlt]
      exact e4
    exact (bind_eq this).trans e5
  · cases u with
    | str cs =>
      obtain ⟨b, o, rfl, g1, g2, g3, g4⟩ := s1
      obtain ⟨rc, g⟩ := Is.kept (k := o.kind) (n := o.size) (cells := o.cells) ⟨o.rc, g1⟩ kall (by have : b < m1.length := lt_of_alive g1; omega) (hlast b (by simp [V.ptr]))
      exact ⟨b, _, rfl, g, g2, g3, g4⟩
    | _ => exact s1
  · have kall0 : Oth (· = m2.length) s.mem m6 := k1.oth.trans kall
    refine ⟨fun b o ho => ?_, fun b hb => ?_⟩
    · have hb := lt_of_alive ho
      cases hm : m6[b]? with
      | none => rw [List.getElem?_eq_none_iff] at hm; have := kall0.1; omega
      | some q =>
        cases q with
        | none => exact .inl rfl
        | some q =>
          obtain ⟨o2, f1, f2, f3, f4⟩ := kall0.2 b q (by omega) hb hm
          rw [ho] at f1
          cases f1
          exact .inr ⟨q, rfl, f2, f3, f4⟩
    · have hlb := (List.getElem?_eq_some_iff.1 hb).1
      show m6[b]? = _
      cases hm : m6[b]? with
      | none => rw [List.getElem?_eq_none_iff] at hm; have := kall0.1; omega
      | some q =>
        cases q with
        | none => rfl
        | some q =>
          obtain ⟨o2, f1, -⟩ := kall0.2 b q (by omega) hlb hm
          rw [hb] at f1
          cases f1

end Libube.Mem

import Verif.Lemmas.MemVarOps

/-! # Maps: what operations do, without exceptions or undefined behaviour -/

namespace Libube.Mem

open MemSpec

/-- Variable `x` is the map `a` with pairs `ps`. -/
structure MA (s : State α) (own : List Addr) (x a : Nat) (ps : List (V α × V α)) (cells : List (Cell α)) : Prop where
  inv : Inv s own
  slot : s.stk[x]? = some (.arr a)
  is : Is s.mem a .pair ps.length cells
  elem : ∀ (i : Nat) (k v : V α), ps[i]? = some (k, v) → cells[i]? = some (.pair k v)
  clean : ∀ c ∈ cells, c.Clean

theorem MA.le {s : State α} {own : List Addr} {x a : Nat} {ps : List (V α × V α)} {cells : List (Cell α)} (h : MA s own x a ps cells) :
    ps.length ≤ cells.length := by
  by_contra hc
  have hlt : cells.length < ps.length := by omega
  have := h.elem cells.length ps[cells.length].1 ps[cells.length].2 (List.getElem?_eq_getElem hlt)
  have := (List.getElem?_eq_some_iff.1 this).1
  omega

theorem MA.stk {s : State α} {own : List Addr} {x a : Nat} {ps : List (V α × V α)} {cells : List (Cell α)} (h : MA s own x a ps cells) :
    a ∈ stkPtrs s.stk := mem_stkPtrs h.slot (by simp [V.ptr])

theorem MA.push_stk {s : State α} {own : List Addr} {x a : Nat} {ps : List (V α × V α)} {cells : List (Cell α)} {v : V α}
    (h : MA s (v.ptr.toList ++ own) x a ps cells) : MA { s with stk := s.stk ++ [v] } own x a ps cells :=
  ⟨h.inv.push, slot_append h.slot, h.is, h.elem, h.clean⟩

theorem MA.own {s : State α} {own own' : List Addr} {n a : Nat} {ps : List (V α × V α)} {cells : List (Cell α)} (h : MA s own n a ps cells)
    {mem : List (Option (Obj α))} (hi : Inv ⟨mem, s.stk⟩ own') (hk : Kept s.mem mem) : MA ⟨mem, s.stk⟩ own' n a ps cells :=
  ⟨hi, h.slot, h.is.kept hk id (hi.stk_live h.stk), h.elem, h.clean⟩

/-- Places of a map are pairs. -/
theorem pair_cell {s : State α} {own : List Addr} {a m j : Nat} {cells : List (Cell α)} (hi : Inv s own) (h : Is s.mem a .pair m cells)
    (hcl : ∀ c ∈ cells, c.Clean) (hj : j < cells.length) : ∃ k v, cells[j]? = some (.pair k v) ∧ ¬ k.IsRef ∧ ¬ v.IsRef := by
  obtain ⟨rc, g⟩ := h
  have hty := InvM.typed hi a _ g cells[j] (List.getElem_mem hj)
  have hc0 := hcl cells[j] (List.getElem_mem hj)
  cases hc : cells[j] with
  | raw y => rw [hc] at hty; exact absurd rfl hty.2
  | var v => rw [hc] at hty; cases hty
  | pair k v =>
    rw [hc] at hc0
    exact ⟨k, v, by rw [List.getElem?_eq_getElem hj, hc], hc0⟩

/-- The loop of `insert` for pairs. -/
theorem movePairsUp_tot [Env α] {x a m : Nat} (n : Nat) : ∀ {i : Nat} {s : State α} {own : List Addr} {cells : List (Cell α)}, Inv s own →
    s.stk[x]? = some (.arr a) → Is s.mem a .pair m cells → (∀ c ∈ cells, c.Clean) → n ≤ i → i < cells.length → i < m →
    ∃ mem' cells', movePairsUp (.slot x) i n s = .ok () { s with mem := mem' } ∧ Inv { s with mem := mem' } own ∧ Is mem' a .pair m cells' ∧
      (∀ c ∈ cells', c.Clean) ∧ cells'.length = cells.length ∧
      (∀ j, cells'[j]? = if i - n < j ∧ j ≤ i then cells[j - 1]? else cells[j]?) ∧ Oth (· = a) s.mem mem' := by
  induction n with
  | zero =>
    intro i s own cells hi hx h hcl hn hlt hm
    exact ⟨s.mem, cells, rfl, hi, h, hcl, rfl, fun j => by rw [if_neg (by omega)], Oth.refl _ _⟩
  | succ n ih =>
    intro i s own cells hi hx h hcl hn hlt hm
    have ha : a ∈ stkPtrs s.stk := mem_stkPtrs hx (by simp [V.ptr])
    obtain ⟨k1, v1, hc1, hk1, hv1⟩ := pair_cell hi h hcl (j := i - 1) (by omega)
    obtain ⟨k2, v2, hc2, hk2, hv2⟩ := pair_cell hi h hcl (j := i) hlt
    -- the key
    obtain ⟨m1, e1, i1, q1, l1⟩ := attach_tot (v := k1) hi (fun b hb => hi.cell_live h (List.mem_of_getElem? hc1) (by simp [Cell.ptrs]; exact .inl (by simpa using hb)))
    have h1 : Is m1 a .pair m cells := h.kept q1 id (l1 a h.live)
    obtain ⟨m2, e2, i2, h2, q2⟩ := assignPlain_tot (s := { s with mem := m1 }) (q := true) (t := k2) (w := k1) i1 ha h1 hc2 rfl hk2 (.self hk1) (fun b j e => by subst e; exact absurd trivial hk1)
    have cl2 : ∀ c ∈ cells.set i (.pair k1 v2), c.Clean := set_clean hcl ⟨hk1, hv2⟩
    -- the value
    obtain ⟨m3, e3, i3, h3, q3⟩ := at_tot i2 h2 (i - 1)
    have hc1' : (cells.set i (.pair k1 v2))[i - 1]? = some (.pair k1 v1) := by rw [List.getElem?_set_ne (by omega)]; exact hc1
    have hc2' : (cells.set i (.pair k1 v2))[i]? = some (.pair k1 v2) := List.getElem?_set_self hlt
    obtain ⟨m4, e4, i4, h4, q4⟩ := setAt_tot (v := .ref a (i - 1)) (own := own) (w := v1) i3 ha h3 (.inr rfl) hc2' rfl hv2
      (.var h3 (.inr rfl) hc1' rfl hv1) (by simp; omega)
    rw [List.set_set] at h4
    obtain ⟨m5, cells', e5, i5, h5, hcl5, hl5, hj5, q5⟩ := ih (i := i - 1) i4 hx h4 (set_clean hcl (show Cell.Clean (.pair k1 v1) from ⟨hk1, hv1⟩))
      (by omega) (by simp; omega) (by omega)
    refine ⟨m5, cells', ?_, i5, h5, hcl5, by simpa using hl5, fun j => ?_, (((q1.oth.trans q2).trans q3.oth).trans q4).trans q5⟩
    · obtain ⟨rc, g⟩ := h
      unfold movePairsUp
      refine (bind_eq (readSlot hx)).trans ?_
      refine (bind_eq (heapOf_arr a _)).trans ?_
      refine (bind_eq (obj_eq g)).trans ?_
      rw [if_neg (by simp), if_neg (by simp only; omega)]
      refine (bind_eq (read_place (q := true) (s := s) ⟨rc, g⟩ hc1 rfl)).trans ?_
      refine (bind_eq e1).trans ?_
      refine (bind_eq e2).trans ?_
      have : at' (.arr a) ((i : Int) - 1) { s with mem := m2 } = .ok (.ref a (i - 1)) { s with mem := m3 } := by
        rw [← e3]; congr 1; omega
      refine (bind_eq this).trans ?_
      refine (bind_eq e4).trans ?_
      exact e5
    · rw [hj5 j]
      by_cases hji : j = i
      · subst hji
        rw [if_neg (by omega), if_pos (by omega), List.getElem?_set_self hlt, hc1]
        rfl
      · by_cases hc : i - (n + 1) < j ∧ j ≤ i
        · rw [if_pos hc, if_pos (by omega), List.getElem?_set_ne (by omega)]
        · rw [if_neg hc, if_neg (by omega), List.getElem?_set_ne (by omega)]

/-- `insert` of a key. -/
theorem insert_ma [Env α] {s : State α} {own : List Addr} {x a p : Nat} {ps : List (V α × V α)} {cells : List (Cell α)} {v : V α}
    (h : MA s (v.ptr.toList ++ own) x a ps cells) (hp : p ≤ ps.length) (hm : ps.length + 1 ≤ 2 ^ 30) (hv : ¬ v.IsRef) :
    ∃ mem' cells', insert (.slot x) v p s = .ok () { s with mem := mem' } ∧
      MA { s with mem := mem' } own x a (ps.take p ++ (v, .nil) :: ps.drop p) cells' ∧ Oth (· = a) s.mem mem' := by
  have h0 := h.push_stk
  have upv : ∀ b ∈ v.ptr.toList, b ∈ stkPtrs (s.stk ++ [v]) := fun b hb => by rw [stkPtrs_append]; exact List.mem_append_right _ hb
  obtain ⟨m1, d, e1, i1, h1, l1, k1⟩ := resize_tot (m := ps.length + 1) h0.inv h0.slot h0.is (.inr rfl) hm
  obtain ⟨m2, cells2, e2, i2, h2, c2, l2, j2, k2⟩ := movePairsUp_tot (n := ps.length - p) (i := ps.length) i1 h0.slot h1 (app_clean h.clean d _)
    (by omega) (by simp; omega) (by omega)
  obtain ⟨m3, e3, i3, k3, l3⟩ := attach_tot i2 (v := v) (fun b hb => i2.stk_live (upv b hb))
  have hplt : p < cells2.length := by rw [l2]; simp; omega
  obtain ⟨t, u, ht, htr, hur⟩ := pair_cell i2 h2 c2 hplt
  obtain ⟨m4, e4, i4, h4, k4⟩ := assignPlain_tot (q := true) (own := own) i3 h0.stk (h2.kept k3 id (l3 a h2.live)) ht rfl htr (.self hv)
    (fun b j e => by subst e; exact absurd trivial hv)
  have ht4 : (cells2.set p (.pair v u))[p]? = some (.pair v u) := List.getElem?_set_self hplt
  obtain ⟨m5, e5, i5, h5, k5⟩ := setAt_tot (v := .nil) (own := own) (w := .nil) i4 h0.stk h4 (.inr rfl) ht4 rfl hur (.self id) (by simp)
  rw [List.set_set] at h5
  obtain ⟨m6, e6, i6, k6⟩ := withVar_tot (s := s) (v := v) (w := v) (m1 := m5) (b := ()) (f := fun lv => do
      let n ← sizeV (← readLoc (.slot x))
      if p > n then throwE (.rangeError "insert(): index too large")
      else do
        match ← kindAt (.slot x) with
        | some .var => do
          resize (.slot x) (n + 1)
          moveUp (.slot x) 1 n (n - p)
          attachV v
          setAt (← readLoc (.slot x)) p v
        | some .pair => do
          resize (.slot x) (n + 1)
          movePairsUp (.slot x) n (n - p)
          match ← heapOf (← readLoc (.slot x)) with
          | none => undef .nullDeref
          | some a => do
            attachV v
            assignPlain (.key a p) v
            setAt (← readLoc (.slot x)) p .nil
        | _ => do
          let m ← sizeV v
          resize (.slot x) (n + m)
          let n' ← sizeV (← readLoc (.slot x))
          let m' ← sizeV (← readLoc lv)
          moveUp (.slot x) m' (n' - 1) (n' - (p + m'))
          copyIn (.slot x) lv p 0 (← sizeV (← readLoc lv))) (by
      obtain ⟨rc, g⟩ := h0.is
      refine (bind_eq (readSlot h0.slot)).trans ?_
      refine (bind_eq (sizeV_arr g)).trans ?_
      rw [if_neg (by simp only; omega)]
      have hk : kindAt (.slot x) ({ s with stk := s.stk ++ [v] } : State α) = .ok (some .pair) { s with stk := s.stk ++ [v] } := by
        unfold kindAt
        refine (bind_eq (readSlot h0.slot)).trans ?_
        refine (bind_eq (heapOf_arr a _)).trans ?_
        exact (bind_eq (obj_eq g)).trans rfl
      refine (bind_eq hk).trans ?_
      refine (bind_eq e1).trans ?_
      refine (bind_eq e2).trans ?_
      refine (bind_eq (readSlot (s := ⟨m2, s.stk ++ [v]⟩) h0.slot)).trans ?_
      refine (bind_eq (heapOf_arr a _)).trans ?_
      refine (bind_eq e3).trans ?_
      refine (bind_eq e4).trans ?_
      refine (bind_eq (readSlot (s := ⟨m4, s.stk ++ [v]⟩) h0.slot)).trans ?_
      exact e5) i5
  refine ⟨m6, cells2.set p (.pair v .nil), e6, ⟨i6, h.slot, ?_, ?_, set_clean c2 (show Cell.Clean (.pair v .nil) from ⟨hv, id⟩)⟩,
    (((((k1.trans k2).trans k3.oth).trans k4).trans k5).trans k6.oth)⟩
  · have := h5.kept k6 id (i6.stk_live h.stk)
    rw [show (ps.take p ++ (v, .nil) :: ps.drop p).length = ps.length + 1 by simp; omega]
    exact this
  · intro i k u hu
    by_cases hip : i = p
    · subst hip
      rw [List.getElem?_append_right (by simp)] at hu
      simp [Nat.min_eq_left hp] at hu
      obtain ⟨rfl, rfl⟩ := hu
      exact List.getElem?_set_self hplt
    · rw [List.getElem?_set_ne (fun e => hip e.symm), j2 i]
      have pre : ∀ {i : Nat} {k u : V α}, ps[i]? = some (k, u) → (cells ++ List.replicate d (freshCell .pair))[i]? = some (Cell.pair k u) := fun hu => by
        have := h.elem _ _ _ hu
        rw [List.getElem?_append_left (List.getElem?_eq_some_iff.1 this).1]; exact this
      by_cases hlt : i < p
      · rw [if_neg (by omega)]
        rw [List.getElem?_append_left (by simp; omega), List.getElem?_take, if_pos hlt] at hu
        exact pre hu
      · rw [List.getElem?_append_right (by simp; omega)] at hu
        have hil := (List.getElem?_eq_some_iff.1 hu).1
        simp [Nat.min_eq_left hp] at hil
        rw [if_pos (by omega)]
        rw [List.length_take, Nat.min_eq_left hp, show i - p = (i - p - 1) + 1 by omega, List.getElem?_cons_succ, List.getElem?_drop] at hu
        exact pre (by rw [← hu]; congr 1; omega)

/-- The search. -/
theorem search_tot [Env α] {s : State α} {a m : Nat} {ps : List (V α × V α)} {cells : List (Cell α)} (h : Is s.mem a .pair m cells) {v : V α}
    (hm : m = ps.length) (he : ∀ (i : Nat) (k u : V α), ps[i]? = some (k, u) → cells[i]? = some (.pair k u)) {L : Nat → Bool}
    (hL : ∀ i k u, ps[i]? = some (k, u) → Env.less s.mem k v = L i) (hmono : ∀ i j, i < j → L j = true → L i = true) (f : Nat) :
    ∀ lo hi, lo ≤ hi → hi ≤ m → hi - lo < f → (∀ i, i < lo → L i = true) → (∀ i, hi ≤ i → i < m → L i = false) →
      ∃ p, searchKeys a v f lo hi s = .ok p s ∧ p ≤ m ∧ (∀ i, i < p → L i = true) ∧ ∀ i, p ≤ i → i < m → L i = false := by
  induction f with
  | zero => intro lo hi _ _ h; omega
  | succ f ih =>
    intro lo hi hlo hhi hf h1 h2
    unfold searchKeys
    by_cases hh : lo = hi
    · subst hh
      rw [if_pos rfl]
      exact ⟨lo, rfl, hhi, h1, h2⟩
    · rw [if_neg hh]
      obtain ⟨rc, g⟩ := h
      have hpm : (hi - lo) / 2 + lo < m := by omega
      have hget : ps[(hi - lo) / 2 + lo]? = some (ps[(hi - lo) / 2 + lo].1, ps[(hi - lo) / 2 + lo].2) := List.getElem?_eq_getElem (by omega)
      have hc := he _ _ _ hget
      have hless := hL _ _ _ hget
      generalize ps[(hi - lo) / 2 + lo].1 = k at *
      generalize ps[(hi - lo) / 2 + lo].2 = u at *
      have red : ∀ r, (if Env.less s.mem k v then searchKeys a v f ((hi - lo) / 2 + lo + 1) hi else searchKeys a v f lo ((hi - lo) / 2 + lo)) s = r →
          (obj a >>= fun o => if (hi - lo) / 2 + lo ≥ o.size then throwE (.rangeError "Heap::at(): index out of bounds")
            else readLoc (.key a ((hi - lo) / 2 + lo)) >>= fun k => getMem >>= fun mem =>
              if Env.less mem k v then searchKeys a v f ((hi - lo) / 2 + lo + 1) hi else searchKeys a v f lo ((hi - lo) / 2 + lo)) s = r := by
        intro r hr
        refine (bind_eq (obj_eq g)).trans ?_
        rw [if_neg (by simp only; omega)]
        refine (bind_eq (read_place (q := true) (s := s) ⟨rc, g⟩ hc rfl)).trans ?_
        exact hr
      by_cases hl : L ((hi - lo) / 2 + lo) = true
      · obtain ⟨p, e, r⟩ := ih ((hi - lo) / 2 + lo + 1) hi (by omega) hhi (by omega) (fun i _ => by
          by_cases hq : i = (hi - lo) / 2 + lo
          · rw [hq]; exact hl
          · rcases Nat.lt_or_ge i ((hi - lo) / 2 + lo) with h | h
            · exact hmono _ _ h hl
            · exact hmono _ _ (by omega) hl) h2
        exact ⟨p, red _ (by rw [hless, hl, if_pos rfl]; exact e), r⟩
      · have hl : L ((hi - lo) / 2 + lo) = false := by simpa using hl
        obtain ⟨p, e, r⟩ := ih lo ((hi - lo) / 2 + lo) (by omega) (by omega) (by omega) h1 (fun i hi1 hi2 => by
          by_contra hc
          have hc : L i = true := by simpa using hc
          by_cases hq : (hi - lo) / 2 + lo = i
          · rw [hq] at hl; rw [hl] at hc; cases hc
          · have := hmono _ _ (show (hi - lo) / 2 + lo < i by omega) hc
            rw [hl] at this; cases this)
        exact ⟨p, red _ (by rw [hless, hl]; exact e), r⟩

theorem reference_tot {s : State α} {own : List Addr} {a : Addr} {k : Kind} {n : Nat} {cells : List (Cell α)} (hi : Inv s own)
    (h : Is s.mem a k n cells) (i : Nat) :
    ∃ mem', reference (.arr a) i s = .ok (.ref a i) { s with mem := mem' } ∧ Inv { s with mem := mem' } (a :: own) ∧ Is mem' a k n cells ∧
      Kept s.mem mem' := by
  obtain ⟨rc, h⟩ := h
  obtain ⟨h1, h2, h3⟩ := upd_tot (own' := a :: own) (rc' := rc + 1) hi h (Nat.succ_pos _) (fun b => by
    simp only [List.count_cons, beq_iff_eq]; split <;> omega)
  exact ⟨_, reference_arr h, h1, h2, h3⟩

/-- Where a key is, or belongs. -/
structure Place [Env α] (mem : List (Option (Obj α))) (ps : List (V α × V α)) (v : V α) (p : Nat) : Prop where
  le : p ≤ ps.length
  before : ∀ (i : Nat) (k u : V α), ps[i]? = some (k, u) → i < p → Env.less mem k v = true
  after : ∀ (i : Nat) (k u : V α), ps[i]? = some (k, u) → p ≤ i → Env.less mem k v = false

/-- The keys less than `v` come first. -/
def Split [Env α] (mem : List (Option (Obj α))) (ps : List (V α × V α)) (v : V α) : Prop :=
  ∀ (i j : Nat) (k u k' u' : V α), i < j → ps[i]? = some (k, u) → ps[j]? = some (k', u') → Env.less mem k' v = true → Env.less mem k v = true

theorem place_tot [Env α] {s : State α} {own : List Addr} {x a : Nat} {ps : List (V α × V α)} {cells : List (Cell α)} (h : MA s own x a ps cells)
    {v : V α} (hs : Split s.mem ps v) : ∃ p, searchKeys a v (ps.length + 1) 0 ps.length s = .ok p s ∧ Place s.mem ps v p := by
  let L : Nat → Bool := fun i => match ps[i]? with | some (k, _) => Env.less s.mem k v | none => false
  have hL : ∀ i k u, ps[i]? = some (k, u) → Env.less s.mem k v = L i := fun i k u hi => by simp only [L, hi]
  obtain ⟨p, e, h1, h2, h3⟩ := search_tot (v := v) (L := L) h.is rfl h.elem hL (fun i j hij hj => by
    cases hpj : ps[j]? with
    | none => simp [L, hpj] at hj
    | some q =>
      obtain ⟨k', u'⟩ := q
      have hi : i < ps.length := by have := (List.getElem?_eq_some_iff.1 hpj).1; omega
      rw [← hL j _ _ hpj] at hj
      rw [← hL i _ _ (List.getElem?_eq_getElem hi)]
      exact hs i j _ _ _ _ hij (List.getElem?_eq_getElem hi) hpj hj) (ps.length + 1) 0 ps.length (Nat.zero_le _) (le_refl _) (by omega)
      (fun i hi => by omega) (fun i h1 h2 => by omega)
  exact ⟨p, e, h1, fun i k u hi hp => by rw [hL i k u hi]; exact h2 i hp,
    fun i k u hi hp => by rw [hL i k u hi]; exact h3 i hp (List.getElem?_eq_some_iff.1 hi).1⟩

theorem keyFound_tot [Env α] {s : State α} {own : List Addr} {x a p : Nat} {ps : List (V α × V α)} {cells : List (Cell α)} (h : MA s own x a ps cells)
    (v : V α) : keyFound a v p s = .ok (match ps[p]? with | some (k, _) => !Env.differ s.mem k v | none => false) s := by
  obtain ⟨rc, g⟩ := h.is
  unfold keyFound
  refine (bind_eq (obj_eq g)).trans ?_
  cases hp : ps[p]? with
  | none =>
    rw [List.getElem?_eq_none_iff] at hp
    rw [if_pos (by simpa using hp)]
    rfl
  | some q =>
    obtain ⟨k, u⟩ := q
    have := (List.getElem?_eq_some_iff.1 hp).1
    rw [if_neg (by simp only; omega)]
    refine (bind_eq (read_place (q := true) (s := s) h.is (h.elem p k u hp) rfl)).trans ?_
    rfl

/-- `m[v]` of a map that has the key. -/
theorem mapIndex_has [Env α] {s : State α} {own : List Addr} {x a p : Nat} {ps : List (V α × V α)} {cells : List (Cell α)} {v k u : V α}
    (h : MA s (v.ptr.toList ++ own) x a ps cells) (hsr : searchKeys a v (ps.length + 1) 0 ps.length { s with stk := s.stk ++ [v] } = .ok p { s with stk := s.stk ++ [v] })
    (hp : ps[p]? = some (k, u)) (hd : Env.differ s.mem k v = false) :
    ∃ mem', mapIndex (.slot x) v s = .ok (.ref a p) { s with mem := mem' } ∧ MA { s with mem := mem' } (a :: own) x a ps cells ∧ Kept s.mem mem' := by
  have h0 := h.push_stk
  obtain ⟨m1, e1, i1, h1, k1⟩ := reference_tot h0.inv h0.is p
  obtain ⟨m2, e2, i2, k2⟩ := withVar_tot (s := s) (v := v) (w := v) (own := a :: own) (m1 := m1) (b := .ref a p) (f := fun _ => do
      let r ← dereference (.slot x)
      makeMap r
      match ← readLoc r with
      | .arr a => do
        let o ← obj a
        if o.kind ≠ .pair then undef .badPointer
        else do
          let p ← searchKeys a v (o.size + 1) 0 o.size
          if ← keyFound a v p then reference (← readLoc r) p
          else do
            attachV v
            insert r v p
            reference (← readLoc r) p
      | _ => undef .badPointer) (by
      obtain ⟨rc, g⟩ := h0.is
      refine (bind_eq (dereference_arr (readSlot h0.slot))).trans ?_
      have hm : makeMap (.slot x) ({ s with stk := s.stk ++ [v] } : State α) = .ok () { s with stk := s.stk ++ [v] } := by
        unfold makeMap
        exact (bind_eq (readSlot h0.slot)).trans rfl
      refine (bind_eq hm).trans ?_
      refine (bind_eq (readSlot h0.slot)).trans ?_
      refine (bind_eq (obj_eq g)).trans ?_
      rw [if_neg (by simp)]
      refine (bind_eq hsr).trans ?_
      refine (bind_eq (keyFound_tot h0 v)).trans ?_
      rw [hp]
      simp only [hd, Bool.not_false, if_true]
      exact (bind_eq (readSlot h0.slot)).trans e1) i1
  exact ⟨m2, e2, ⟨i2, h.slot, h1.kept k2 id (i2.stk_live h.stk), h.elem, h.clean⟩, k1.trans k2⟩

/-- `m[v]` of a map that does not have the key. -/
theorem mapIndex_new [Env α] {s : State α} {own : List Addr} {x a p : Nat} {ps : List (V α × V α)} {cells : List (Cell α)} {v : V α}
    (h : MA s (v.ptr.toList ++ own) x a ps cells) (hsr : searchKeys a v (ps.length + 1) 0 ps.length { s with stk := s.stk ++ [v] } = .ok p { s with stk := s.stk ++ [v] })
    (hp : p ≤ ps.length) (hd : ∀ k u, ps[p]? = some (k, u) → Env.differ s.mem k v = true) (hv : ¬ v.IsRef) (hm : ps.length + 1 ≤ 2 ^ 30) :
    ∃ mem' cells', mapIndex (.slot x) v s = .ok (.ref a p) { s with mem := mem' } ∧
      MA { s with mem := mem' } (a :: own) x a (ps.take p ++ (v, .nil) :: ps.drop p) cells' ∧ Oth (· = a) s.mem mem' := by
  have h0 := h.push_stk
  have upv : ∀ b ∈ v.ptr.toList, b ∈ stkPtrs (s.stk ++ [v]) := fun b hb => by rw [stkPtrs_append]; exact List.mem_append_right _ hb
  obtain ⟨m1, e1, i1, k1, l1⟩ := attach_tot h0.inv (v := v) (fun b hb => h0.inv.stk_live (upv b hb))
  have h1 : MA ⟨m1, s.stk ++ [v]⟩ (v.ptr.toList ++ own) x a ps cells := h0.own i1 k1
  obtain ⟨m2, cells', e2, h2, k2⟩ := insert_ma h1 hp hm hv
  obtain ⟨m3, e3, i3, h3, k3⟩ := reference_tot h2.inv h2.is p
  obtain ⟨m4, e4, i4, k4⟩ := withVar_tot (s := s) (v := v) (w := v) (own := a :: own) (m1 := m3) (b := .ref a p) (f := fun _ => do
      let r ← dereference (.slot x)
      makeMap r
      match ← readLoc r with
      | .arr a => do
        let o ← obj a
        if o.kind ≠ .pair then undef .badPointer
        else do
          let p ← searchKeys a v (o.size + 1) 0 o.size
          if ← keyFound a v p then reference (← readLoc r) p
          else do
            attachV v
            insert r v p
            reference (← readLoc r) p
      | _ => undef .badPointer) (by
      obtain ⟨rc, g⟩ := h0.is
      refine (bind_eq (dereference_arr (readSlot h0.slot))).trans ?_
      have hm : makeMap (.slot x) ({ s with stk := s.stk ++ [v] } : State α) = .ok () { s with stk := s.stk ++ [v] } := by
        unfold makeMap
        exact (bind_eq (readSlot h0.slot)).trans rfl
      refine (bind_eq hm).trans ?_
      refine (bind_eq (readSlot h0.slot)).trans ?_
      refine (bind_eq (obj_eq g)).trans ?_
      rw [if_neg (by simp)]
      refine (bind_eq hsr).trans ?_
      refine (bind_eq (keyFound_tot h0 v)).trans ?_
      have hb : (match ps[p]? with | some (k, _) => !Env.differ s.mem k v | none => false) = false := by
        cases hq : ps[p]? with
        | none => rfl
        | some q => simp [hd q.1 q.2 hq]
      rw [hb]
      refine (bind_eq e1).trans ?_
      refine (bind_eq e2).trans ?_
      exact (bind_eq (readSlot h2.slot)).trans e3) i3
  exact ⟨m4, cells', e4, ⟨i4, h.slot, h3.kept k4 id (i4.stk_live h.stk), h2.elem, h2.clean⟩, (((k1.oth.trans k2).trans k3.oth).trans k4.oth)⟩

/-- `m.at(v)` of a map. -/
theorem mapAt_has [Env α] {s : State α} {own : List Addr} {x a p : Nat} {ps : List (V α × V α)} {cells : List (Cell α)} {v k u : V α}
    (h : MA s own x a ps cells) (hsr : searchKeys a v (ps.length + 1) 0 ps.length s = .ok p s)
    (hp : ps[p]? = some (k, u)) (hd : Env.differ s.mem k v = false) :
    ∃ mem', mapAt (.arr a) v s = .ok (.ref a p) { s with mem := mem' } ∧ MA { s with mem := mem' } (a :: own) x a ps cells ∧ Kept s.mem mem' := by
  obtain ⟨m1, e1, i1, h1, k1⟩ := reference_tot h.inv h.is p
  refine ⟨m1, ?_, ⟨i1, h.slot, h1, h.elem, h.clean⟩, k1⟩
  obtain ⟨rc, g⟩ := h.is
  unfold mapAt
  refine (bind_eq (definedV_arr a s)).trans ?_
  rw [if_neg (by simp)]
  refine (bind_eq (heapOf_arr a s)).trans ?_
  refine (bind_eq (obj_eq g)).trans ?_
  rw [if_neg (by simp)]
  refine (bind_eq hsr).trans ?_
  refine (bind_eq (keyFound_tot h v)).trans ?_
  rw [hp]
  simp only [hd, Bool.not_false, if_true]
  exact e1

theorem mapAt_not [Env α] {s : State α} {own : List Addr} {x a p : Nat} {ps : List (V α × V α)} {cells : List (Cell α)} {v : V α}
    (h : MA s own x a ps cells) (hsr : searchKeys a v (ps.length + 1) 0 ps.length s = .ok p s)
    (hd : ∀ k u, ps[p]? = some (k, u) → Env.differ s.mem k v = true) : mapAt (.arr a) v s = .ok .nil s := by
  obtain ⟨rc, g⟩ := h.is
  unfold mapAt
  refine (bind_eq (definedV_arr a s)).trans ?_
  rw [if_neg (by simp)]
  refine (bind_eq (heapOf_arr a s)).trans ?_
  refine (bind_eq (obj_eq g)).trans ?_
  rw [if_neg (by simp)]
  refine (bind_eq hsr).trans ?_
  refine (bind_eq (keyFound_tot h v)).trans ?_
  have hb : (match ps[p]? with | some (k, _) => !Env.differ s.mem k v | none => false) = false := by
    cases hq : ps[p]? with
    | none => rfl
    | some q => simp [hd q.1 q.2 hq]
  rw [hb]
  rfl

end Libube.Mem

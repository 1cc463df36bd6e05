import Verif.Lemmas.MemMapOps
import Verif.Props.MemVars

/-! # Maps (C33–C35, C37, C38, C90, C91) -/

namespace Libube.MemProps

open Mem MemSpec

variable {α : Type}

/-! ## Kinds of keys, for examples -/

section
attribute [local instance] intEnv

/-- Integers as keys. -/
def intKeys : KeyOrder Int where
  Key t := ∃ x, t = .num .int x
  lt t u := match t, u with
    | .num _ x, .num _ y => x < y
    | _, _ => False
  simple := by
    rintro t ⟨x, rfl⟩
    exact .inl ⟨.int, x, rfl, ⟨by simp, by simp⟩, by simp⟩
  less := by
    rintro s t u v w ⟨x, rfl⟩ ⟨y, rfl⟩ h1 h2
    rw [show v = .num .int x from h1, show w = .num .int y from h2]
    show decide (x < y) = true ↔ x < y
    simp
  differ := by
    rintro s t u v w ⟨x, rfl⟩ ⟨y, rfl⟩ h1 h2
    rw [show v = .num .int x from h1, show w = .num .int y from h2]
    show (x != y) = true ↔ _
    simp
  irrefl := by rintro t ⟨x, rfl⟩; simp
  trans := by
    rintro t u v ⟨x, rfl⟩ ⟨y, rfl⟩ ⟨z, rfl⟩ h1 h2
    exact Int.lt_trans h1 h2
  total := by
    rintro t u ⟨x, rfl⟩ ⟨y, rfl⟩
    rcases Int.lt_trichotomy x y with h | h | h
    · exact .inl h
    · exact .inr (.inl (by rw [h]))
    · exact .inr (.inr h)

theorem str_cells {o : Obj Int} {cs : List Int} (h : Elements o .char cs) :
    o.cells.take o.size = cs.map fun x => .raw (some x) := by
  obtain ⟨h1, h2, h3⟩ := h
  refine List.ext_getElem? fun i => ?_
  rw [List.getElem?_take, List.getElem?_map, h2]
  by_cases hi : i < cs.length
  · rw [if_pos hi, h3 i _ (List.getElem?_eq_getElem hi), List.getElem?_eq_getElem hi]
    rfl
  · rw [if_neg hi, List.getElem?_eq_none (by omega)]
    rfl

/-- Strings as keys. -/
def strKeys : KeyOrder Int where
  Key t := ∃ cs, t = .str cs ∧ Fits cs
  lt t u := match t, u with
    | .str x, .str y => x < y
    | _, _ => False
  simple := by
    rintro t ⟨x, rfl, h⟩
    exact .inr ⟨x, rfl, h⟩
  less := by
    rintro s t u v w ⟨x, rfl, -⟩ ⟨y, rfl, -⟩ ⟨b, o, rfl, h1, h2⟩ ⟨c, p, rfl, h3, h4⟩
    show (match s.mem[b]?, s.mem[c]? with
      | some (some o), some (some p) =>
        decide ((o.cells.take o.size).map (fun c => match c with | .raw (some x) => x | _ => 0) <
          (p.cells.take p.size).map (fun c => match c with | .raw (some x) => x | _ => 0))
      | _, _ => false) = true ↔ x < y
    rw [h1, h3]
    simp [str_cells h2, str_cells h4, Function.comp_def]
  differ := by
    rintro s t u v w ⟨x, rfl, -⟩ ⟨y, rfl, -⟩ ⟨b, o, rfl, h1, h2⟩ ⟨c, p, rfl, h3, h4⟩
    have : (x.map fun x => Cell.raw (some x)) = (y.map fun x => Cell.raw (some x)) ↔ x = y := by
      constructor
      · intro h
        exact List.map_injective_iff.2 (fun a b h => by cases h; rfl) h
      · rintro rfl; rfl
    show (match s.mem[b]?, s.mem[c]? with
      | some (some o), some (some p) => o.cells.take o.size != p.cells.take p.size
      | _, _ => true) = true ↔ _
    rw [h1, h3]
    simp [str_cells h2, str_cells h4, this]
  irrefl := by rintro t ⟨x, rfl, -⟩; exact List.lt_irrefl x
  trans := by
    rintro t u v ⟨x, rfl, -⟩ ⟨y, rfl, -⟩ ⟨z, rfl, -⟩ h1 h2
    exact List.lt_trans h1 h2
  total := by
    rintro t u ⟨x, rfl, -⟩ ⟨y, rfl, -⟩
    by_cases h : x < y
    · exact .inl h
    · by_cases h' : y < x
      · exact .inr (.inr h')
      · exact .inr (.inl (by rw [List.le_antisymm (List.not_lt.1 h') (List.not_lt.1 h)]))

end

/-! ## Assignment -/

/-- C33, C34: `m[k] = e` gives key `k` the value, leaves all other entries as they were, and the keys ascending; nothing
    else changes. -/
theorem set_key_partial [Env α] (K : KeyOrder α) {s : State α} (hr : Reach s) {n : Nat} {l : List (Item α × V α)} (h : MapOf K s n l) {t : Item α}
    (ht : K.Key t) {k e : Exp α} (hk : KeyExp s k t) (hu : Usable s n e) (hf : Fits l) :
    ∃ s' w l', run (.setKey n k e) s = .ok () s' ∧ Yields s s' e w ∧ MapOf K s' n l' ∧ Updated l l' t w ∧ s'.stk = s.stk ∧ OthersSame s s' n := by
  obtain ⟨s', w, l', h1, h2, h3, h4, h5, h6⟩ := setKey_tot K hr h ht hk hu hf
  exact ⟨s', w, l', h1, h2, h3, h4.upd, h5, h6⟩

/-- `m[k] = e` makes a map of a variable that is nil. -/
theorem set_key_nil [Env α] (K : KeyOrder α) {s : State α} (hr : Reach s) {n : Nat} (h : s.stk[n]? = some .nil) {t u : Item α} (ht : K.Key t)
    {k : Exp α} (hk : KeyExp s k t) (hu : u.Writable s) :
    ∃ s' b w, run (.setKey n k u.exp) s = .ok () s' ∧ s'.stk = s.stk.set n (.arr b) ∧ s.mem.length ≤ b ∧ MapOf K s' n [(t, w)] ∧
      u.Shown { s' with stk := s.stk } w ∧ AllSame s s' := setKey_nil K hr h ht hk hu

/-- What a value shows does not change with assignments to the map. -/
theorem shown_still [Env α] {K : KeyOrder α} {s s' : State α} (hr' : Reach s') {n : Nat} {l l' : List (Item α × V α)} (h : MapOf K s n l) (h' : MapOf K s' n l')
    (hs : s'.stk = s.stk) (ho : OthersSame s s' n) {t u : Item α} {w : V α} (hw : (t, w) ∈ l') (hu : u.Shown s w) : u.Shown s' w := by
  cases u with
  | str cs =>
    obtain ⟨b, o, rfl, h1, h2, h3, h4⟩ := hu
    obtain ⟨own, a, ps, cells, hma, hmk⟩ := ma_of_entries hr' h'.1
    obtain ⟨i, hi⟩ := List.getElem?_of_mem hw
    obtain ⟨kv, g1, -⟩ := hmk.get i _ _ hi
    obtain ⟨o1, ho1⟩ := hma.val_live g1 b (by simp [V.ptr])
    have hba : s.stk[n]? ≠ some (.arr b) := by
      intro hb
      obtain ⟨⟨ks, -, ⟨a, p, e1, e2, e3, -⟩, -⟩, -⟩ := h
      rw [hb] at e1
      cases e1
      rw [h1] at e2
      cases e2
      rw [h2] at e3
      cases e3
    rcases ho.1 b o hba h1 with hh | ⟨o2, f1, f2, f3, f4⟩
    · rw [ho1] at hh; cases hh
    · exact ⟨b, o2, rfl, f1, f2.trans h2, f3.trans h3, fun i x hx => by rw [f4]; exact h4 i x hx⟩
  | name m =>
    show s'.stk[m]? = _
    rw [hs]
    exact hu
  | _ => exact hu

/-- One assignment, in terms of values. -/
theorem assoc_set_partial [Env α] [DecidableEq α] (K : KeyOrder α) {s : State α} (hr : Reach s) {n m : Nat} {f : Item α → Option (Item α)} (h : Assoc K s n m f)
    {t u : Item α} (ht : K.Key t) (hu : u.Writable s) (hf : m + 2 ≤ 2 ^ 30) :
    ∃ s', run (.setKey n t.exp u.exp) s = .ok () s' ∧ Assoc K s' n (m + 1) (fun t' => if t' = t then some u else f t') ∧ s'.stk = s.stk ∧ OthersSame s s' n := by
  obtain ⟨l, h1, h2, h3⟩ := h
  obtain ⟨s', w, l', e1, e2, e3, e4, e5, e6⟩ := setKey_tot K hr h1 ht (k := t.exp) (.inl rfl) (writable_usable hu n) (show l.length + 2 ≤ 2 ^ 30 by omega)
  have hr' : Reach s' := .ok hr e1
  refine ⟨s', e1, ⟨l', e3, ?_, fun t' => ?_⟩, e5, e6⟩
  · by_cases hab : Absent l t
    · obtain ⟨p, hp, rfl⟩ := e4.new hab
      simp only [List.length_append, List.length_take, List.length_cons, List.length_drop]
      omega
    · have : ∃ w, (t, w) ∈ l := by by_contra hc; exact hab (fun w hw => hc ⟨w, hw⟩)
      obtain ⟨w', hw'⟩ := this
      obtain ⟨i, hi⟩ := List.getElem?_of_mem hw'
      rw [e4.old i w' hi, List.length_set]
      omega
  · by_cases htt : t' = t
    · subst htt
      simp only [if_true]
      exact ⟨w, (e4.upd t' w).2 (.inl ⟨rfl, rfl⟩), shown_new hu e5 e2⟩
    · simp only [if_neg htt]
      have := h3 t'
      cases hft : f t' with
      | none =>
        rw [hft] at this
        intro w' hw'
        rcases (e4.upd t' w').1 hw' with ⟨h, -⟩ | ⟨-, h⟩
        · exact htt h
        · exact this w' h
      | some u' =>
        rw [hft] at this
        obtain ⟨w', g1, g2⟩ := this
        have hm := (e4.upd t' w').2 (.inr ⟨htt, g1⟩)
        exact ⟨w', hm, shown_still hr' h1 e3 e5 e6 hm g2⟩

/-- C33, C34: after any sequence of assignments `m[k] = v`, each key has the value last assigned to it, keys never assigned
    are absent, and the entries are in ascending order of their keys, each key once. -/
theorem map_history_partial [Env α] [DecidableEq α] (K : KeyOrder α) (ops : List (Item α × Item α)) : ∀ {s : State α}, Reach s → ∀ {n m : Nat} {f : Item α → Option (Item α)},
    Assoc K s n m f → (∀ p ∈ ops, K.Key p.1 ∧ p.2.Writable s) → m + ops.length + 2 ≤ 2 ^ 30 →
    ∃ s', Runs (ops.map fun p => .setKey n p.1.exp p.2.exp) s s' ∧ Assoc K s' n (m + ops.length) (assigned f ops) ∧ s'.stk = s.stk ∧ OthersSame s s' n := by
  induction ops with
  | nil =>
    intro s hr n m f h _ _
    exact ⟨s, rfl, h, rfl, fun b o _ ho => .inr ⟨o, ho, rfl, rfl, rfl⟩, fun b hb => hb⟩
  | cons p ops ih =>
    intro s hr n m f h hops hf
    obtain ⟨t, u⟩ := p
    simp only [List.length_cons] at hf
    obtain ⟨h1, h2⟩ := hops _ (List.mem_cons_self ..)
    obtain ⟨s1, e1, a1, st1, o1⟩ := assoc_set_partial K hr h h1 h2 (by omega)
    have hw : ∀ p ∈ ops, K.Key p.1 ∧ p.2.Writable s1 := fun p hp => by
      obtain ⟨g1, g2⟩ := hops p (List.mem_cons_of_mem _ hp)
      refine ⟨g1, ?_⟩
      cases hp2 : p.2 with
      | name m => rw [hp2] at g2; show ∃ v, s1.stk[m]? = some v ∧ Plain v; rw [st1]; exact g2
      | _ => rw [hp2] at g2; exact g2
    obtain ⟨s2, e2, a2, st2, o2⟩ := ih (.ok hr e1) a1 hw (by omega)
    refine ⟨s2, ⟨s1, e1, e2⟩, ?_, st2.trans st1, same_trans o1 o2 st1⟩
    rw [List.length_cons, show m + (ops.length + 1) = m + 1 + ops.length by omega]
    exact a2

/-- The same from the start: the variable is nil. -/
theorem map_from_nil_partial [Env α] [DecidableEq α] (K : KeyOrder α) {s : State α} (hr : Reach s) {n : Nat} (h : s.stk[n]? = some .nil) (t u : Item α)
    (ops : List (Item α × Item α)) (hops : ∀ p ∈ (t, u) :: ops, K.Key p.1 ∧ p.2.Writable s ∧ p.2 ≠ .name n) (hf : ops.length + 3 ≤ 2 ^ 30) :
    ∃ s', Runs (((t, u) :: ops).map fun p => .setKey n p.1.exp p.2.exp) s s' ∧ Assoc K s' n (ops.length + 1) (assigned (fun _ => none) ((t, u) :: ops)) := by
  obtain ⟨h1, h2, h3⟩ := hops _ (List.mem_cons_self ..)
  obtain ⟨s1, b, w, e1, st1, -, m1, sh1, -⟩ := setKey_nil K hr h h1 (k := t.exp) (.inl rfl) h2
  have hne : ∀ m, m ≠ n → s1.stk[m]? = s.stk[m]? := fun m hm => by rw [st1, List.getElem?_set_ne (fun e => hm e.symm)]
  have sh : u.Shown s1 w := by
    cases u with
    | name m =>
      show s1.stk[m]? = _
      rw [hne m (fun e => h3 (by rw [e]))]
      exact sh1
    | _ => exact sh1
  have a1 : Assoc K s1 n 1 (fun t' => if t' = t then some u else none) := by
    refine ⟨[(t, w)], m1, le_refl _, fun t' => ?_⟩
    by_cases htt : t' = t
    · subst htt
      simp only [if_true]
      exact ⟨w, by simp, sh⟩
    · simp only [if_neg htt]
      intro w' hw'
      simp at hw'
      exact htt hw'.1
  obtain ⟨s2, e2, a2, -, -⟩ := map_history_partial K ops (.ok hr e1) a1 (fun p hp => by
    obtain ⟨g1, g2, g3⟩ := hops p (List.mem_cons_of_mem _ hp)
    refine ⟨g1, ?_⟩
    cases hp2 : p.2 with
    | name m =>
      rw [hp2] at g2 g3
      show ∃ v, s1.stk[m]? = some v ∧ Plain v
      rw [hne m (fun e => g3 (by rw [e]))]
      exact g2
    | _ => rw [hp2] at g2; exact g2) (by omega)
  refine ⟨s2, ⟨s1, e1, e2⟩, ?_⟩
  rw [Nat.add_comm]
  exact a2

/-! ## Reading -/

theorem all_same {s : State α} {mem : List (Option (Obj α))} {stk : List (V α)} (h : Kept s.mem mem) : AllSame s ⟨mem, stk⟩ := by
  refine ⟨fun b o ho => ?_, fun b hb => ?_⟩
  · have hb := lt_of_alive ho
    show mem[b]? = _ ∨ _
    cases hm : mem[b]? with
    | none => rw [List.getElem?_eq_none_iff] at hm; have := h.1; omega
    | some q =>
      cases q with
      | none => exact .inl rfl
      | some q =>
        obtain ⟨o2, f1, f2, f3, f4⟩ := h.2 b q id hb hm
        rw [ho] at f1
        cases f1
        exact .inr ⟨q, rfl, f2, f3, f4⟩
  · have hlb := (List.getElem?_eq_some_iff.1 hb).1
    show mem[b]? = _
    cases hm : mem[b]? with
    | none => rw [List.getElem?_eq_none_iff] at hm; have := h.1; omega
    | some q =>
      cases q with
      | none => rfl
      | some q =>
        obtain ⟨o2, f1, -⟩ := h.2 b q id hlb hm
        rw [hb] at f1
        cases f1

theorem entries_push [Env α] {K : KeyOrder α} {s : State α} {own : List Addr} {n a : Nat} {l : List (Item α × V α)} {ps : List (V α × V α)} {cells : List (Cell α)}
    {v : V α} (h : MA s (v.ptr.toList ++ own) n a ps cells) (hk : MK s l ps) (hl : Ascending K l) : MapOf K ⟨s.mem, s.stk ++ [v]⟩ n l :=
  ⟨h.push_stk.entries (MK.oth (K := K) (P := fun _ => False) (a := a) hk hl (fun _ h => absurd h id) h.is (Oth.refl _ _) (fun i k u hi => h.key_live hi)), hl⟩

theorem reads_entry {s : State α} {own : List Addr} {n a p : Nat} {l : List (Item α × V α)} {ps : List (V α × V α)} {cells : List (Cell α)}
    {t : Item α} {w : V α} (h : MA s own n a ps cells) (hk : MK s l ps) (hp : l[p]? = some (t, w)) : Reads ⟨s.mem, s.stk ++ [.ref a p]⟩ s.stk.length w := by
  obtain ⟨k, h1, -⟩ := hk.get p t w hp
  obtain ⟨rc, g⟩ := h.is
  exact .inr ⟨a, p, _, by simp, g, .inr ⟨k, h.elem p k w h1⟩⟩

/-- C33, C35: `var y = m[k]` for a key in the map: `y` refers to its value; nothing changes. -/
theorem get_key_partial [Env α] (K : KeyOrder α) {s : State α} (hr : Reach s) {n : Nat} {l : List (Item α × V α)} (h : MapOf K s n l) {t : Item α}
    (ht : K.Key t) {k : Exp α} (hk : KeyExp s k t) {w : V α} (hw : (t, w) ∈ l) (hf : Fits l) :
    ∃ s', run (.decl (.key n k)) s = .ok () s' ∧ MapOf K s' n l ∧ RefersTo s' s.stk.length n l t ∧ Reads s' s.stk.length w ∧
      s'.stk.take s.stk.length = s.stk ∧ AllSame s s' := by
  have hf : l.length + 2 ≤ 2 ^ 30 := hf
  obtain ⟨own, a, ps, cells, hma, hmk⟩ := ma_of_entries hr h.1
  obtain ⟨m1, p, l', ps', cells', w', e1, h1, k1, hmk1, hl1, hp, hc⟩ := evalKey_tot K hma hmk h.2 ht hk (by omega)
  rcases hc with ⟨rfl, rfl, k1'⟩ | ⟨hab, -, -⟩
  · obtain ⟨i, hi⟩ := List.getElem?_of_mem hw
    have : i = p := by
      rcases Nat.lt_trichotomy i p with hh | hh | hh
      · exact absurd (ascending_get hl1 hh hi hp) (K.irrefl ht)
      · exact hh
      · exact absurd (ascending_get hl1 hh hp hi) (K.irrefl ht)
    rw [this, hp] at hi
    cases hi
    refine ⟨⟨m1, s.stk ++ [.ref a p]⟩, (bind_eq e1).trans rfl, entries_push (v := .ref a p) (own := own) h1 hmk1 hl1, ⟨a, p, w, slot_append hma.slot, by simp, hp⟩,
      reads_entry h1 hmk1 hp, by simp, all_same k1'⟩
  · exact absurd hw (hab w)

/-- C35: `var y = m[k]` for a key that is not in the map adds that key, with nil; nothing else changes. -/
theorem get_new_key_partial [Env α] (K : KeyOrder α) {s : State α} (hr : Reach s) {n : Nat} {l : List (Item α × V α)} (h : MapOf K s n l) {t : Item α}
    (ht : K.Key t) {k : Exp α} (hk : KeyExp s k t) (hw : Absent l t) (hf : Fits l) :
    ∃ s' l', run (.decl (.key n k)) s = .ok () s' ∧ MapOf K s' n l' ∧ Updated l l' t .nil ∧ RefersTo s' s.stk.length n l' t ∧ Reads s' s.stk.length .nil ∧
      s'.stk.take s.stk.length = s.stk ∧ OthersSame s s' n := by
  have hf : l.length + 2 ≤ 2 ^ 30 := hf
  obtain ⟨own, a, ps, cells, hma, hmk⟩ := ma_of_entries hr h.1
  obtain ⟨m1, p, l', ps', cells', w', e1, h1, k1, hmk1, hl1, hp, hc⟩ := evalKey_tot K hma hmk h.2 ht hk (by omega)
  rcases hc with ⟨rfl, rfl, k1'⟩ | ⟨hab, rfl, rfl⟩
  · exact absurd (List.mem_of_getElem? hp) (hw w')
  · exact ⟨⟨m1, s.stk ++ [.ref a p]⟩, _, (bind_eq e1).trans rfl, entries_push (v := .ref a p) (own := own) h1 hmk1 hl1, updated_insert hab .nil p,
      ⟨a, p, .nil, slot_append hma.slot, by simp, hp⟩, reads_entry h1 hmk1 hp, by simp, oth_same hma.slot hma.is.live k1⟩

/-- C35: `var y = m.at(k)` changes nothing; `y` refers to the value of the key, or is nil if the key is absent. -/
theorem at_key [Env α] (K : KeyOrder α) {s : State α} (hr : Reach s) {n : Nat} {l : List (Item α × V α)} (h : MapOf K s n l) {t : Item α}
    (ht : K.Key t) {k : Exp α} (hk : KeyExp s k t) :
    ∃ s', run (.decl (.atKey n k)) s = .ok () s' ∧ MapOf K s' n l ∧ s'.stk.take s.stk.length = s.stk ∧ AllSame s s' ∧
      (Absent l t → s'.stk = s.stk ++ [.nil]) ∧ ∀ w, (t, w) ∈ l → RefersTo s' s.stk.length n l t ∧ Reads s' s.stk.length w := by
  obtain ⟨own, a, ps, cells, hma, hmk⟩ := ma_of_entries hr h.1
  obtain ⟨m1, v, e1, h1, k1, hc⟩ := evalAt_tot K hma hmk h.2 ht hk
  have hmk1 : MK ⟨m1, s.stk⟩ l ps := MK.oth (K := K) (P := fun _ => False) (a := a) hmk h.2 (fun _ h => absurd h id) hma.is k1 (fun i k u hi => h1.key_live hi)
  refine ⟨⟨m1, s.stk ++ [v]⟩, (bind_eq e1).trans rfl, entries_push h1 hmk1 h.2, by simp, all_same k1, fun hab => ?_, fun w hw => ?_⟩
  · rcases hc with ⟨-, rfl⟩ | ⟨p, w, -, hp⟩
    · rfl
    · exact absurd (List.mem_of_getElem? hp) (hab w)
  · rcases hc with ⟨hab, -⟩ | ⟨p, w', rfl, hp⟩
    · exact absurd hw (hab w)
    · obtain ⟨i, hi⟩ := List.getElem?_of_mem hw
      have : i = p := by
        rcases Nat.lt_trichotomy i p with hh | hh | hh
        · exact absurd (ascending_get h.2 hh hi hp) (K.irrefl ht)
        · exact hh
        · exact absurd (ascending_get h.2 hh hp hi) (K.irrefl ht)
      rw [this, hp] at hi
      cases hi
      exact ⟨⟨a, p, w, slot_append hma.slot, by simp, hp⟩, reads_entry h1 hmk1 hp⟩

/-! ## References into maps -/

/-- C37: a reference to the entry of a key still refers to that entry after an assignment to another key that is in the map, or
    that comes after. -/
theorem ref_stays_partial [Env α] (K : KeyOrder α) {s : State α} (hr : Reach s) {n r : Nat} {l : List (Item α × V α)} (h : MapOf K s n l) {t u : Item α}
    (hu : RefersTo s r n l u) (ht : K.Key t) {k e : Exp α} (hk : KeyExp s k t) (he : Usable s n e) (hlt : Absent l t → K.lt u t) (hf : Fits l) :
    ∃ s' w l', run (.setKey n k e) s = .ok () s' ∧ Yields s s' e w ∧ MapOf K s' n l' ∧ Updated l l' t w ∧ RefersTo s' r n l' u ∧
      ∀ x, (u, x) ∈ l' → Reads s' r x := by
  obtain ⟨s', w, l', h1, h2, h3, h4, h5, h6⟩ := setKey_tot K hr h ht hk he hf
  obtain ⟨a, p, x, g1, g2, g3⟩ := hu
  have huk := h.2.1 _ (List.mem_of_getElem? g3)
  have hp : ∃ y, l'[p]? = some (u, y) := by
    by_cases hab : Absent l t
    · obtain ⟨q, hq, rfl⟩ := h4.new hab
      by_cases hqp : p < q
      · exact ⟨x, by rw [List.getElem?_append_left (by rw [List.length_take]; omega), List.getElem?_take, if_pos hqp]; exact g3⟩
      · exfalso
        have e1 : (l.take q ++ (t, w) :: l.drop q)[p + 1]? = some (u, x) := by
          rw [List.getElem?_append_right (by rw [List.length_take]; omega), List.length_take, Nat.min_eq_left hq,
            show p + 1 - q = p - q + 1 by omega, List.getElem?_cons_succ, List.getElem?_drop, show q + (p - q) = p by omega]
          exact g3
        have e2 : (l.take q ++ (t, w) :: l.drop q)[q]? = some (t, w) := by
          rw [List.getElem?_append_right (by rw [List.length_take]; omega), List.length_take, Nat.min_eq_left hq, Nat.sub_self]
          rfl
        exact K.irrefl huk (K.trans huk ht huk (hlt hab) (ascending_get h4.asc (show q < p + 1 by omega) e2 e1))
    · have : ∃ w, (t, w) ∈ l := by by_contra hc; exact hab (fun w hw => hc ⟨w, hw⟩)
      obtain ⟨w', hw'⟩ := this
      obtain ⟨i, hi⟩ := List.getElem?_of_mem hw'
      rw [h4.old i w' hi]
      by_cases hip : i = p
      · subst hip
        rw [g3] at hi
        cases hi
        exact ⟨w, List.getElem?_set_self (List.getElem?_eq_some_iff.1 g3).1⟩
      · exact ⟨x, by rw [List.getElem?_set_ne hip]; exact g3⟩
  obtain ⟨y, hy⟩ := hp
  refine ⟨s', w, l', h1, h2, h3, h4.upd, ⟨a, p, y, by rw [h5]; exact g1, by rw [h5]; exact g2, hy⟩, fun z hz => ?_⟩
  obtain ⟨i, hi⟩ := List.getElem?_of_mem hz
  have : i = p := by
    rcases Nat.lt_trichotomy i p with hh | hh | hh
    · exact absurd (ascending_get h4.asc hh hi hy) (K.irrefl huk)
    · exact hh
    · exact absurd (ascending_get h4.asc hh hy hi) (K.irrefl huk)
  rw [this] at hi
  obtain ⟨own, a', ps, cells, hma, hmk⟩ := ma_of_entries (.ok hr h1) h3.1
  have haa : a' = a := by
    have := hma.slot
    rw [h5, g1] at this
    cases this
    rfl
  subst haa
  obtain ⟨kv, j1, -⟩ := hmk.get p u z hi
  obtain ⟨rc, g⟩ := hma.is
  exact .inr ⟨a', p, _, by rw [h5]; exact g2, g, .inr ⟨kv, hma.elem p kv z j1⟩⟩

/-- It refers to another entry if the other key is new and comes before. -/
theorem ref_moves [Env α] (K : KeyOrder α) {s : State α} (hr : Reach s) {n r : Nat} {l : List (Item α × V α)} (h : MapOf K s n l) {t u : Item α}
    (hu : RefersTo s r n l u) (ht : K.Key t) {k e : Exp α} (hk : KeyExp s k t) (he : Usable s n e) (hab : Absent l t) (hlt : K.lt t u) (hf : Fits l) :
    ∃ s' l' u', run (.setKey n k e) s = .ok () s' ∧ MapOf K s' n l' ∧ RefersTo s' r n l' u' ∧ u' ≠ u := by
  obtain ⟨s', w, l', h1, h2, h3, h4, h5, h6⟩ := setKey_tot K hr h ht hk he hf
  obtain ⟨a, p, x, g1, g2, g3⟩ := hu
  have huk := h.2.1 _ (List.mem_of_getElem? g3)
  obtain ⟨q, hq, hl'⟩ := h4.new hab
  have hpl := (List.getElem?_eq_some_iff.1 g3).1
  have hqp : q ≤ p := by
    by_contra hc
    have e1 : l'[p]? = some (u, x) := by
      rw [hl', List.getElem?_append_left (by rw [List.length_take]; omega), List.getElem?_take, if_pos (by omega)]
      exact g3
    have e2 : l'[q]? = some (t, w) := by
      rw [hl', List.getElem?_append_right (by rw [List.length_take]; omega), List.length_take, Nat.min_eq_left hq, Nat.sub_self]
      rfl
    exact K.irrefl huk (K.trans huk ht huk (ascending_get h4.asc (show p < q by omega) e1 e2) hlt)
  have e1 : l'[p + 1]? = some (u, x) := by
    rw [hl', List.getElem?_append_right (by rw [List.length_take]; omega), List.length_take, Nat.min_eq_left hq,
      show p + 1 - q = p - q + 1 by omega, List.getElem?_cons_succ, List.getElem?_drop, show q + (p - q) = p by omega]
    exact g3
  have hpl' : p < l'.length := by have := (List.getElem?_eq_some_iff.1 e1).1; omega
  refine ⟨s', l', l'[p].1, h1, h3, ⟨a, p, l'[p].2, by rw [h5]; exact g1, by rw [h5]; exact g2, List.getElem?_eq_getElem hpl'⟩, fun e => ?_⟩
  have := ascending_get h4.asc (show p < p + 1 by omega) (List.getElem?_eq_getElem hpl') e1
  rw [e] at this
  exact K.irrefl huk this

/-- C91: `m[j] = m[k]` gives `j` the value of `k`, if `j` is in the map or comes after `k`. -/
theorem set_key_own_partial [Env α] (K : KeyOrder α) {s : State α} (hr : Reach s) {n : Nat} {l : List (Item α × V α)} (h : MapOf K s n l) {t u : Item α}
    (ht : K.Key t) (hu : K.Key u) {j k : Exp α} (hj : KeyExp s j t) (hk : KeyExp s k u) {w : V α} (hw : (u, w) ∈ l) (hne : t ≠ u) (hlt : Absent l t → K.lt u t)
    (hf : Fits l) :
    ∃ s' l', run (.setKey n j (.key n k)) s = .ok () s' ∧ MapOf K s' n l' ∧ Updated l l' t w ∧ s'.stk = s.stk ∧ OthersSame s s' n := by
  obtain ⟨s', l', h1, h2, h3, h4, h5⟩ := setKey_own K hr h ht hu hj hk hw hne hlt hf
  exact ⟨s', l', h1, h2, h3.upd, h4, h5⟩

/-- C90: an assignment to an element of an array of numbers leaves the entries of a map as they are, if the array is none of the keys. -/
theorem keys_fixed_partial [Env α] (K : KeyOrder α) {s : State α} (hr : Reach s) {n m i : Nat} {l : List (Item α × V α)} (h : MapOf K s n l) {k j : Kind} {xs : List α} (x : α)
    (hk : Number k) (hj : Scalar j) (hc : Contents s m k xs) (hi : i + 2 ≤ 2 ^ 30) (hs : ∀ a, s.stk[m]? = some (.arr a) → ¬ IsKey s n a) :
    ∃ s', run (.setElem m i (.num j x)) s = .ok () s' ∧ MapOf K s' n l := by
  obtain ⟨s', h1, -, h3, h4⟩ := set_element_partial hr (i := i) x hk hj hc hi
  refine ⟨s', h1, ?_, h.2⟩
  obtain ⟨a, oa, ha, hoa, hka, -⟩ := hc
  obtain ⟨ks, e1, ⟨b, o, f1, f2, f3, f4, f5⟩, e3⟩ := h.1
  have hba : b ≠ a := by
    rintro rfl
    rw [f2] at hoa
    cases hoa
    rw [f3] at hka
    exact hk.2 hka.symm
  refine ⟨ks, e1, ⟨b, o, by rw [h3]; exact f1, by rw [h4 a b ha hba (lt_of_alive f2)]; exact f2, f3, f4, f5⟩, fun q t w v ht hv => ?_⟩
  have hsh := e3 q t w v ht hv
  rcases K.simple (h.2.1 _ (List.mem_of_getElem? ht)) with ⟨k', y, rfl, -⟩ | ⟨cs, rfl, -⟩
  · exact hsh
  · obtain ⟨c, oc, rfl, g1, g2⟩ := hsh
    have hca : c ≠ a := by
      rintro rfl
      have hz : (ks.zip l)[q]? = some (.arr c, (.str cs, w)) := by
        rw [List.getElem?_zip_eq_some]
        exact ⟨hv, ht⟩
      exact hs c ha ⟨b, o, q, w, f1, f2, by rw [f4, List.length_map]; exact (List.getElem?_eq_some_iff.1 hz).1, f5 q _ (by rw [List.getElem?_map, hz]; rfl)⟩
    exact ⟨c, oc, rfl, by rw [h4 a c ha hca (lt_of_alive g1)]; exact g1, g2⟩

/-! ## Cases that meet the hypotheses -/

section
attribute [local instance] intEnv

theorem entries_of {s : State Int} {n : Nat} {a : Addr} {o : Obj Int} (ks : List (V Int)) (l : List (Item Int × V Int)) (h1 : s.stk[n]? = some (.arr a))
    (h2 : s.mem[a]? = some (some o)) (h3 : o.kind = .pair) (h4 : o.size = l.length) (h5 : ks.length = l.length)
    (h6 : o.cells.take l.length = (ks.zip l).map fun p => .pair p.1 p.2.2)
    (h7 : ∀ (i : Nat) (t : Item Int) (w k : V Int), l[i]? = some (t, w) → ks[i]? = some k → t.Shown s k) : Entries s n l := by
  refine ⟨ks, h5, ⟨a, o, h1, h2, h3, ?_, fun i c hc => ?_⟩, h7⟩
  · simp [h4, h5]
  · rw [← h6, List.getElem?_take] at hc
    split at hc
    · exact hc
    · cases hc

theorem int_map_of {s : State Int} {n : Nat} {a : Addr} {o : Obj Int} (el : List (Int × V Int)) (h1 : s.stk[n]? = some (.arr a))
    (h2 : s.mem[a]? = some (some o)) (h3 : o.kind = .pair) (h4 : o.size = el.length)
    (h5 : o.cells.take el.length = el.map fun p => .pair (.num .int p.1) p.2) (h6 : el.Pairwise fun p q => p.1 < q.1) :
    MapOf intKeys s n (el.map fun p => (.num .int p.1, p.2)) := by
  refine ⟨entries_of (el.map fun p => .num .int p.1) _ h1 h2 h3 (by simpa using h4) (by simp) ?_ ?_, ?_, ?_⟩
  · rw [List.length_map, h5]
    refine List.ext_getElem? fun i => ?_
    cases hi : el[i]? <;> simp [List.getElem?_zip_eq_some, List.getElem?_map, hi, List.zip_map', List.map_map]
  · intro i t w k ht hk
    rw [List.getElem?_map] at ht hk
    cases hi : el[i]? with
    | none => rw [hi] at ht; cases ht
    | some p =>
      rw [hi] at ht hk
      cases ht
      cases hk
      rfl
  · intro p hp
    obtain ⟨q, -, rfl⟩ := List.mem_map.1 hp
    exact ⟨q.1, rfl⟩
  · rw [List.pairwise_map]
    exact h6

/-- Key 2 has the string "B", and `r` is `m[2]`. -/
def progRef : List (Stmt Int) := [.decl .nil, .setKey 0 (.num .int 2) (.str [66]), .decl (.key 0 (.num .int 2))]

theorem progRef_reach : Reach (final progRef) := reach_exec progRef .start (by decide +kernel)

theorem progRef_map : MapOf intKeys (final progRef) 0 [(.num .int 2, .arr 0)] :=
  int_map_of (a := 1) (o := ⟨.pair, 1, 2, .pair (.num .int 2) (.arr 0) :: List.replicate 7 (.pair .nil .nil)⟩) [(2, .arr 0)]
    (by decide +kernel) (by decide +kernel) rfl rfl rfl (by simp)

theorem progRef_refers : RefersTo (final progRef) 1 0 [(.num .int 2, .arr 0)] (.num .int 2) :=
  ⟨1, 0, .arr 0, by decide +kernel, by decide +kernel, rfl⟩

/-- Hypotheses of `set_key_partial`, `get_key_partial`, `get_new_key_partial`, `at_key`, `ref_stays_partial` and `ref_moves`. -/
example : intKeys.Key (.num .int 2) ∧ intKeys.Key (.num .int 1) ∧ intKeys.Key (.num .int 3) ∧
    KeyExp (final progRef) (.num .int 1) (.num .int 1) ∧ Usable (final progRef) 0 (.str [67]) ∧
    Absent [((.num .int 2 : Item Int), (.arr 0 : V Int))] (.num .int 1) ∧ intKeys.lt (.num .int 1) (.num .int 2) ∧ intKeys.lt (.num .int 2) (.num .int 3) ∧
    Fits [((.num .int 2 : Item Int), (.arr 0 : V Int))] :=
  ⟨⟨_, rfl⟩, ⟨_, rfl⟩, ⟨_, rfl⟩, .inl rfl, by simp [Usable, Fits], by simp [Absent], (by decide : (1 : Int) < 2), (by decide : (2 : Int) < 3), by simp [Fits]⟩

/-- Hypotheses of `set_key_nil` and `map_from_nil_partial`: two maps are made in turn, with keys in any order and some of them twice, and
    a string variable as value. -/
def kops : List (Item Int × Item Int) :=
  [(.num .int 5, .str [65]), (.num .int 1, .num .float 9), (.num .int 5, .name 1), (.num .int 3, .nil), (.num .int 1, .num .int 2)]

example : Reach (final [.decl .nil, .decl (.str [70])]) ∧ (final [.decl .nil, .decl (.str [70])]).stk[0]? = some .nil ∧
    (∀ p ∈ kops, intKeys.Key p.1 ∧ p.2.Writable (final [.decl .nil, .decl (.str [70])]) ∧ p.2 ≠ .name 0) ∧
    assigned (fun _ => none) kops (.num .int 5) = some (.name 1) ∧ assigned (fun _ => none) kops (.num .int 1) = some (.num .int 2) ∧
    assigned (fun _ => none) kops (.num .int 2) = none := by
  have h1 : (final [.decl .nil, .decl (.str [70])]).stk[1]? = some (.arr 0) := by decide +kernel
  refine ⟨reach_exec [.decl .nil, .decl (.str [70])] .start (by decide +kernel), by decide +kernel, ?_, rfl, rfl, rfl⟩
  intro p hp
  simp only [kops, List.mem_cons, List.not_mem_nil, or_false] at hp
  rcases hp with rfl | rfl | rfl | rfl | rfl <;> exact ⟨⟨_, rfl⟩, by simp [Item.Writable, Fits, Scalar, Number, h1, Plain], by simp⟩

/-- Hypotheses of `map_history_partial`. -/
example : Assoc intKeys (final progRef) 0 1 (fun t => if t = .num .int 2 then some (.str [66]) else none) := by
  refine ⟨_, progRef_map, le_refl _, fun t => ?_⟩
  by_cases ht : t = .num .int 2
  · subst ht
    simp only [if_true]
    refine ⟨.arr 0, by simp, 0, ⟨.char, 1, 1, [.raw (some 66), .raw (some 0), .raw none, .raw none, .raw none, .raw none, .raw none, .raw none]⟩, rfl, by decide +kernel, rfl, rfl, ?_⟩
    intro i x hx
    match i, hx with
    | 0, hx => simpa using hx
  · simp only [if_neg ht]
    intro w hw
    simp at hw
    exact ht hw.1

/-- String keys: the key "a" is in a variable, and the map has it. -/
def progKey : List (Stmt Int) := [.decl (.str [97]), .decl .nil, .setKey 1 (.name 0) (.num .int 5)]

theorem progKey_reach : Reach (final progKey) := reach_exec progKey .start (by decide +kernel)

theorem progKey_shown : (Item.str [97] : Item Int).Shown (final progKey) (.arr 0) := by
  refine ⟨0, ⟨.char, 1, 2, [.raw (some 97), .raw (some 0), .raw none, .raw none, .raw none, .raw none, .raw none, .raw none]⟩, rfl, by decide +kernel, rfl, rfl, ?_⟩
  intro i x hx
  match i, hx with
  | 0, hx => simpa using hx

theorem progKey_map : MapOf strKeys (final progKey) 1 [(.str [97], .num .int 5)] := by
  refine ⟨entries_of (a := 1) (o := ⟨.pair, 1, 1, .pair (.arr 0) (.num .int 5) :: List.replicate 7 (.pair .nil .nil)⟩) [.arr 0] _
    (by decide +kernel) (by decide +kernel) rfl rfl rfl rfl ?_, ?_, by simp⟩
  · intro i t w k ht hk
    match i, ht, hk with
    | 0, ht, hk =>
      cases ht
      cases hk
      exact progKey_shown
  · intro p hp
    simp at hp
    subst hp
    exact ⟨_, rfl, by simp [Fits]⟩

example : strKeys.Key (.str [97]) ∧ KeyExp (final progKey) (.name 0) (.str [97]) ∧ KeyExp (final progKey) (.str [98]) (.str [98]) ∧
    strKeys.lt (.str [97]) (.str [97, 98]) :=
  ⟨⟨_, rfl, by simp [Fits]⟩, .inr ⟨0, .arr 0, rfl, by decide +kernel, progKey_shown⟩, .inl rfl, (by decide : ([97] : List Int) < [97, 98])⟩

/-- Keys 2 and 3, for `set_key_own_partial`. -/
def progPair : List (Stmt Int) := [.decl .nil, .setKey 0 (.num .int 2) (.num .int 20), .setKey 0 (.num .int 3) (.num .int 30)]

theorem progPair_reach : Reach (final progPair) := reach_exec progPair .start (by decide +kernel)

theorem progPair_map : MapOf intKeys (final progPair) 0 [(.num .int 2, .num .int 20), (.num .int 3, .num .int 30)] :=
  int_map_of (a := 0) (o := ⟨.pair, 2, 1, .pair (.num .int 2) (.num .int 20) :: .pair (.num .int 3) (.num .int 30) :: List.replicate 6 (.pair .nil .nil)⟩)
    [(2, .num .int 20), (3, .num .int 30)] (by decide +kernel) (by decide +kernel) rfl rfl rfl (by simp)

/-- `m[2] = m[3]` and `m[4] = m[3]`. -/
example : let l : List (Item Int × V Int) := [(.num .int 2, .num .int 20), (.num .int 3, .num .int 30)]
    ((.num .int 3, .num .int 30) ∈ l ∧ (.num .int 2 : Item Int) ≠ .num .int 3 ∧ ¬ Absent l (.num .int 2)) ∧
    Absent l (.num .int 4) ∧ intKeys.lt (.num .int 3) (.num .int 4) :=
  ⟨⟨by simp, by simp, fun h => h (.num .int 20) (by simp)⟩, by simp [Absent], (by decide : (3 : Int) < 4)⟩

/-- Hypotheses of `keys_fixed_partial`: the string of another variable is no key. -/
example : Reach (final (progKey ++ [.decl (.str [98])])) ∧ Contents (final (progKey ++ [.decl (.str [98])])) 2 .char [98] ∧
    ∀ a, (final (progKey ++ [.decl (.str [98])])).stk[2]? = some (.arr a) → ¬ IsKey (final (progKey ++ [.decl (.str [98])])) 1 a := by
  refine ⟨reach_exec (progKey ++ [.decl (.str [98])]) .start (by decide +kernel), contents_of (a := 2)
    (o := ⟨.char, 1, 1, [.raw (some 98), .raw (some 0), .raw none, .raw none, .raw none, .raw none, .raw none, .raw none]⟩) [98] (by decide +kernel) (by decide +kernel) rfl rfl, ?_⟩
  rintro a ha ⟨b, o, i, w, h1, h2, h3, h4⟩
  have f0 : (final (progKey ++ [.decl (.str [98])])).stk[2]? = some (.arr 2) := by decide +kernel
  have f1 : (final (progKey ++ [.decl (.str [98])])).stk[1]? = some (.arr 1) := by decide +kernel
  have f2 : (final (progKey ++ [.decl (.str [98])])).mem[1]? = some (some ⟨.pair, 1, 1, .pair (.arr 0) (.num .int 5) :: List.replicate 7 (.pair .nil .nil)⟩) := by decide +kernel
  rw [f0] at ha
  cases ha
  rw [f1] at h1
  cases h1
  rw [f2] at h2
  cases h2
  match i, h3 with
  | 0, _ => simp at h4

/-! ## What does not hold -/

/-- Keys 1 and 2 after `m[1] = 10` in the state of `progRef`. -/
theorem progRef_after : run (.setKey 0 (.num .int 1) (.num .int 10)) (final progRef) = .ok () (final (progRef ++ [.setKey 0 (.num .int 1) (.num .int 10)])) := by
  decide +kernel

/-- C37 in full: a reference to the value of a key still denotes it after an assignment to any key. -/
def RefStays : Prop := ∀ (s s' : State Int) (n r : Nat) (l l' : List (Item Int × V Int)) (j k : Int) (e : Exp Int) (w : V Int), Reach s →
  MapOf intKeys s n l → RefersTo s r n l (.num .int k) → Usable s n e → run (.setKey n (.num .int j) e) s = .ok () s' →
  MapOf intKeys s' n l' → (.num .int k, w) ∈ l' → Reads s' r w

/-- It does not: with `r` referring to `m[2]`, assigning to `m[1]` makes `r` refer to `m[1]`. -/
theorem ref_does_not_stay : ¬ RefStays := by
  intro h
  have h1 : MapOf intKeys (final (progRef ++ [.setKey 0 (.num .int 1) (.num .int 10)])) 0 [(.num .int 1, .num .int 10), (.num .int 2, .arr 0)] :=
    int_map_of (a := 1) (o := ⟨.pair, 2, 2, .pair (.num .int 1) (.num .int 10) :: .pair (.num .int 2) (.arr 0) :: List.replicate 6 (.pair .nil .nil)⟩)
      [(1, .num .int 10), (2, .arr 0)] (by decide +kernel) (by decide +kernel) rfl rfl rfl (by simp)
  have h2 := h _ _ 0 1 _ _ 1 2 (.num .int 10) (.arr 0) progRef_reach progRef_map progRef_refers ⟨⟨by decide, by decide⟩, by decide⟩ progRef_after h1 (by simp)
  have h3 : (final (progRef ++ [.setKey 0 (.num .int 1) (.num .int 10)])).stk[1]? = some (.ref 1 0) := by decide +kernel
  have h4 : (final (progRef ++ [.setKey 0 (.num .int 1) (.num .int 10)])).mem[1]? =
      some (some ⟨.pair, 2, 2, .pair (.num .int 1) (.num .int 10) :: .pair (.num .int 2) (.arr 0) :: List.replicate 6 (.pair .nil .nil)⟩) := by decide +kernel
  rcases h2 with ⟨e, -⟩ | ⟨a, i, o, e1, e2, e3⟩
  · rw [h3] at e
    cases e
  · rw [h3] at e1
    cases e1
    rw [h4] at e2
    cases e2
    simp at e3

/-- A map `{7: 70}` in variable 0, a map `{1: that map}` in variable 1, and `r` is `m[1]`. -/
def progNest : List (Stmt Int) :=
  [.decl .nil, .setKey 0 (.num .int 7) (.num .int 70), .decl .nil, .setKey 1 (.num .int 1) (.name 0), .decl (.key 1 (.num .int 1))]

theorem progNest_reach : Reach (final progNest) := reach_exec progNest .start (by decide +kernel)

/-- C38 in full: `m[j].at(k)` is the value of `k` in the inner map (which variable `i` also is). -/
def NestedAt : Prop := ∀ (s s' : State Int) (i n r : Nat) (l l' : List (Item Int × V Int)) (j k : Int) (b : Addr) (w : V Int), Reach s →
  MapOf intKeys s n l → RefersTo s r n l (.num .int j) → (.num .int j, .arr b) ∈ l → s.stk[i]? = some (.arr b) → MapOf intKeys s i l' →
  (.num .int k, w) ∈ l' → run (.decl (.atKey r (.num .int k))) s = .ok () s' → Reads s' s.stk.length w

/-- It is not: the key is found in the inner map, but its position is used in the outer one. `m[1].at(7)` is not 70 but `m[1]`. -/
theorem nested_at_wrong : ¬ NestedAt := by
  intro h
  have h1 : MapOf intKeys (final progNest) 1 [(.num .int 1, .arr 0)] :=
    int_map_of (a := 1) (o := ⟨.pair, 1, 2, .pair (.num .int 1) (.arr 0) :: List.replicate 7 (.pair .nil .nil)⟩) [(1, .arr 0)]
      (by decide +kernel) (by decide +kernel) rfl rfl rfl (by simp)
  have h0 : MapOf intKeys (final progNest) 0 [(.num .int 7, .num .int 70)] :=
    int_map_of (a := 0) (o := ⟨.pair, 1, 2, .pair (.num .int 7) (.num .int 70) :: List.replicate 7 (.pair .nil .nil)⟩) [(7, .num .int 70)]
      (by decide +kernel) (by decide +kernel) rfl rfl rfl (by simp)
  have hrun : run (.decl (.atKey 2 (.num .int 7))) (final progNest) = .ok () (final (progNest ++ [.decl (.atKey 2 (.num .int 7))])) := by decide +kernel
  have h2 := h _ _ 0 1 2 _ _ 1 7 0 (.num .int 70) progNest_reach h1 ⟨1, 0, .arr 0, by decide +kernel, by decide +kernel, rfl⟩ (by simp) (by decide +kernel) h0
    (by simp) hrun
  have h3 : (final progNest).stk.length = 3 := by decide +kernel
  have h4 : (final (progNest ++ [.decl (.atKey 2 (.num .int 7))])).stk[3]? = some (.ref 1 0) := by decide +kernel
  have h5 : (final (progNest ++ [.decl (.atKey 2 (.num .int 7))])).mem[1]? =
      some (some ⟨.pair, 1, 3, .pair (.num .int 1) (.arr 0) :: List.replicate 7 (.pair .nil .nil)⟩) := by decide +kernel
  rw [h3] at h2
  rcases h2 with ⟨e, -⟩ | ⟨a, i, o, e1, e2, e3⟩
  · rw [h4] at e
    cases e
  · rw [h4] at e1
    cases e1
    rw [h5] at e2
    cases e2
    simp at e3

/-- C91 in full: `m[j] = m[k]` gives `j` the value of `k`. -/
def CopiesEntry : Prop := ∀ (s : State Int) (n : Nat) (l : List (Item Int × V Int)) (j k : Int) (w : V Int), Reach s → MapOf intKeys s n l →
  (.num .int k, w) ∈ l → ∃ s' l', run (.setKey n (.num .int j) (.key n (.num .int k))) s = .ok () s' ∧ MapOf intKeys s' n l' ∧ (.num .int j, w) ∈ l'

/-- It does not: `m[1] = m[2]` throws if 1 is new, as does `m[2] = m[2]`, and `m[1] = m[3]` gives `m[1]` the value of `m[2]`. -/
theorem entry_not_copied : ¬ CopiesEntry ∧
    (∃ s', run (.setKey 0 (.num .int 1) (.key 0 (.num .int 2))) (final progPair) = .thrown (.error "var::dereference(): Unknown type") s') ∧
    (∃ s', run (.setKey 0 (.num .int 2) (.key 0 (.num .int 2))) (final progPair) = .thrown (.error "var::dereference(): Unknown type") s') ∧
    ∃ s', run (.setKey 0 (.num .int 1) (.key 0 (.num .int 3))) (final progPair) = .ok () s' ∧
      MapOf intKeys s' 0 [(.num .int 1, .num .int 20), (.num .int 2, .num .int 20), (.num .int 3, .num .int 30)] := by
  have h1 : ∃ s', run (.setKey 0 (.num .int 1) (.key 0 (.num .int 2))) (final progPair) = .thrown (.error "var::dereference(): Unknown type") s' :=
    ⟨⟨[some ⟨.pair, 3, 2, .pair (.num .int 1) (.bad .pair) :: .pair (.num .int 2) (.num .int 20) :: .pair (.num .int 3) (.num .int 30) :: List.replicate 5 (.pair .nil .nil)⟩], [.arr 0]⟩,
      by decide +kernel⟩
  refine ⟨fun h => ?_, h1, ?_, ?_⟩
  · obtain ⟨s', l', e, -⟩ := h _ 0 _ 1 2 (.num .int 20) progPair_reach progPair_map (by simp)
    obtain ⟨s1, h1⟩ := h1
    rw [e] at h1
    cases h1
  · exact ⟨⟨[some ⟨.pair, 2, 2, .pair (.num .int 2) (.bad .pair) :: .pair (.num .int 3) (.num .int 30) :: List.replicate 6 (.pair .nil .nil)⟩], [.arr 0]⟩, by decide +kernel⟩
  · refine ⟨final (progPair ++ [.setKey 0 (.num .int 1) (.key 0 (.num .int 3))]), by decide +kernel, ?_⟩
    exact int_map_of (a := 0) (o := ⟨.pair, 3, 1, .pair (.num .int 1) (.num .int 20) :: .pair (.num .int 2) (.num .int 20) :: .pair (.num .int 3) (.num .int 30) ::
      List.replicate 5 (.pair .nil .nil)⟩) [(1, .num .int 20), (2, .num .int 20), (3, .num .int 30)] (by decide +kernel) (by decide +kernel) rfl rfl rfl (by simp)

/-- C90 in full: an assignment to an element of a variable that is not the map does not change which keys the map has. -/
def KeysFixed : Prop := ∀ (s s' : State Int) (n m i : Nat) (l : List (Item Int × V Int)) (x : Int), Reach s → MapOf strKeys s n l → n ≠ m →
  run (.setElem m i (.num .char x)) s = .ok () s' → Entries s' n l

/-- It does: the map shares the string given as key. After `k = "a"; m[k] = 5; k[0] = 'z'` the key of the map is "z". -/
theorem keys_change : ¬ KeysFixed ∧ ∃ s', run (.setElem 0 0 (.num .char 122)) (final progKey) = .ok () s' ∧ Entries s' 1 [(.str [122], .num .int 5)] := by
  have hrun : run (.setElem 0 0 (.num .char 122)) (final progKey) = .ok () (final (progKey ++ [.setElem 0 0 (.num .char 122)])) := by decide +kernel
  have hm : (final (progKey ++ [.setElem 0 0 (.num .char 122)])).mem[0]? =
    some (some ⟨.char, 1, 2, [.raw (some 122), .raw (some 0), .raw none, .raw none, .raw none, .raw none, .raw none, .raw none]⟩) := by decide +kernel
  have hz : Entries (final (progKey ++ [.setElem 0 0 (.num .char 122)])) 1 [(.str [122], .num .int 5)] := by
    refine entries_of (a := 1) (o := ⟨.pair, 1, 1, .pair (.arr 0) (.num .int 5) :: List.replicate 7 (.pair .nil .nil)⟩) [.arr 0] _
      (by decide +kernel) (by decide +kernel) rfl rfl rfl rfl ?_
    intro i t w k ht hk
    match i, ht, hk with
    | 0, ht, hk =>
      cases ht
      cases hk
      refine ⟨0, _, rfl, hm, rfl, rfl, ?_⟩
      intro i x hx
      match i, hx with
      | 0, hx => simpa using hx
  refine ⟨fun h => ?_, _, hrun, hz⟩
  obtain ⟨ks, h1, h2, h3⟩ := h _ _ 1 0 0 _ 122 progKey_reach progKey_map (by decide) hrun
  obtain ⟨a, o, e1, e2, e3, e4, e5⟩ := h2
  have f1 : (final (progKey ++ [.setElem 0 0 (.num .char 122)])).stk[1]? = some (.arr 1) := by decide +kernel
  have f2 : (final (progKey ++ [.setElem 0 0 (.num .char 122)])).mem[1]? = some (some ⟨.pair, 1, 1, .pair (.arr 0) (.num .int 5) :: List.replicate 7 (.pair .nil .nil)⟩) := by decide +kernel
  rw [f1] at e1
  cases e1
  rw [f2] at e2
  cases e2
  match ks, h1 with
  | [k], _ =>
    have := e5 0 (.pair k (.num .int 5)) rfl
    simp at this
    obtain ⟨b, o, g1, g2, g3, g4, g5⟩ := h3 0 (.str [97]) (.num .int 5) k rfl rfl
    rw [← this] at g1
    cases g1
    rw [hm] at g2
    cases g2
    have := g5 0 97 rfl
    simp at this

end

#print axioms set_key_partial
#print axioms set_key_nil
#print axioms assoc_set_partial
#print axioms map_history_partial
#print axioms map_from_nil_partial
#print axioms get_key_partial
#print axioms get_new_key_partial
#print axioms at_key
#print axioms ref_stays_partial
#print axioms ref_moves
#print axioms set_key_own_partial
#print axioms ref_does_not_stay
#print axioms nested_at_wrong
#print axioms keys_fixed_partial
#print axioms entry_not_copied
#print axioms keys_change

end Libube.MemProps

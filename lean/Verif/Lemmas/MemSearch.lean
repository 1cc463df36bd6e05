import Verif.Lemmas.MemReplace

/-! # Storing matches -/

namespace Libube.Mem

open MemSpec

variable {α : Type}

theorem withVar_congr {v : V α} {f : Loc → M α β} {s s' : State α} (hl : s.stk.length = s'.stk.length)
    (h : f (.slot s.stk.length) { s with stk := s.stk ++ [v] } = f (.slot s.stk.length) { s' with stk := s'.stk ++ [v] }) : withVar v f s = withVar v f s' := by
  unfold withVar
  simp only
  rw [← hl, h]

/-- Assigning the first element of nil is assigning the first element of a new array. -/
theorem setIndex_first [Env α] {s : State α} {x : Nat} (hx : s.stk[x]? = some .nil) (v : V α) {o : Obj α}
    (hn' : ∀ stk, newHeap 1 (some .var) ⟨s.mem, stk⟩ = .ok s.mem.length ⟨s.mem ++ [some o], stk⟩) (ho : o.size = 1) :
    setIndex (.slot x) 0 v s = setIndex (.slot x) 0 v ⟨s.mem ++ [some o], s.stk.set x (.arr s.mem.length)⟩ := by
  have hlt := (List.getElem?_eq_some_iff.1 hx).1
  have hset : (s.stk ++ [v]).set x (.arr s.mem.length) = s.stk.set x (.arr s.mem.length) ++ [v] := set_append hx _ _
  have key : index (.slot x) 0 ⟨s.mem, s.stk ++ [v]⟩ = index (.slot x) 0 ⟨s.mem ++ [some o], s.stk.set x (.arr s.mem.length) ++ [v]⟩ := by
    have hx1 : (s.stk ++ [v])[x]? = some .nil := slot_append hx
    have hx2 : (s.stk.set x (.arr s.mem.length) ++ [v])[x]? = some (.arr s.mem.length) := slot_append (List.getElem?_set_self hlt)
    have hg : (s.mem ++ [some o])[s.mem.length]? = some (some o) := by simp
    refine Eq.trans ?_ (index_in (i := 0) (s := ⟨s.mem ++ [some o], s.stk.set x (.arr s.mem.length) ++ [v]⟩) hx2 hg (by omega)).symm
    unfold index
    refine (bind_eq (readSlot (s := ⟨s.mem, s.stk ++ [v]⟩) hx1)).trans ?_
    simp only
    unfold indexPlain
    rw [if_neg (by omega)]
    refine (bind_eq (readSlot (s := ⟨s.mem, s.stk ++ [v]⟩) hx1)).trans ?_
    refine (bind_eq (show sizeV (.nil : V α) ⟨s.mem, s.stk ++ [v]⟩ = .ok 0 ⟨s.mem, s.stk ++ [v]⟩ from rfl)).trans ?_
    rw [if_pos (by simp)]
    have hr : resize (.slot x) (0 + 1) ⟨s.mem, s.stk ++ [v]⟩ = .ok () ⟨s.mem ++ [some o], s.stk.set x (.arr s.mem.length) ++ [v]⟩ := by
      unfold resize
      rw [if_neg (by omega)]
      have hd : dereference (.slot x) ⟨s.mem, s.stk ++ [v]⟩ = .ok (.slot x) ⟨s.mem, s.stk ++ [v]⟩ := by
        unfold dereference
        exact (bind_eq (readSlot (s := ⟨s.mem, s.stk ++ [v]⟩) hx1)).trans rfl
      refine (bind_eq hd).trans ?_
      refine (bind_eq (readSlot (s := ⟨s.mem, s.stk ++ [v]⟩) hx1)).trans ?_
      simp only
      unfold wrap
      refine (bind_eq (readSlot (s := ⟨s.mem, s.stk ++ [v]⟩) hx1)).trans ?_
      simp only
      refine (bind_eq (show newHeap (0 + 1 : Int).toNat none ⟨s.mem, s.stk ++ [v]⟩ = _ from hn' (s.stk ++ [v]))).trans ?_
      unfold writeLoc
      rw [← hset]
      exact if_pos (List.getElem?_eq_some_iff.1 hx1).1
    refine (bind_eq hr).trans ?_
    exact index_tail (i := 0) (s := ⟨s.mem ++ [some o], s.stk.set x (.arr s.mem.length) ++ [v]⟩) hx2 hg
  unfold setIndex
  refine withVar_congr (by simp) ?_
  show M.bind _ _ _ = M.bind _ _ _
  unfold M.bind
  simp only [List.length_set]
  rw [key]

/-- The strings of an array. -/
def Texts (mem : List (Option (Obj α))) (es : List Addr) (xss : List (List α)) : Prop :=
  es.length = xss.length ∧ ∀ (i : Nat) (e : Addr) (xs : List α), es[i]? = some e → xss[i]? = some xs → ∃ o : Obj α, mem[e]? = some (some o) ∧ Elements o .char xs

/-- The part of a list from a place on, of a length. -/
def cut (xs : List α) (m : Nat × Nat) : List α := (xs.drop m.1).take m.2

theorem putMatches_tot [Env α] {x : Nat} {b q : Addr} {v : V α} {xs : List α} {own : List Addr} (hqb : q ≠ b) (hvb : ∀ p j, v = .ref p j → p ≠ b) (ms : List (Nat × Nat)) : ∀ {s : State α} {i : Nat} {cells : List (Cell α)}, Inv s own → s.stk[x]? = some (.arr b) →
    Is s.mem b .var i cells → i ≤ cells.length → (∀ c ∈ cells, c.Clean) → i + ms.length ≤ 2 ^ 30 → (∀ m ∈ ms, m.1 + m.2 ≤ xs.length) → xs.length + 1 ≤ 2 ^ 30 →
    Deno s.mem v (.arr q) → (∀ p ∈ v.ptr.toList, p ∈ stkPtrs s.stk) → (∃ o : Obj α, s.mem[q]? = some (some o) ∧ Elements o .char xs) →
    ∃ (mem' : List (Option (Obj α))) (cells' : List (Cell α)) (es : List Addr), putMatches (some q) (.slot x) i ms s = .ok () ⟨mem', s.stk⟩ ∧ Inv ⟨mem', s.stk⟩ own ∧
      Is mem' b .var (i + ms.length) cells' ∧ i + ms.length ≤ cells'.length ∧ (∀ j, j < i → cells'[j]? = cells[j]?) ∧ (∀ (j : Nat) (e : Addr), es[j]? = some e → cells'[i + j]? = some (.var (.arr e))) ∧
      Texts mem' es (ms.map (cut xs)) ∧ es.Nodup ∧ (∀ e ∈ es, s.mem.length ≤ e) ∧ Oth (· = b) s.mem mem' := by
  induction ms with
  | nil =>
    intro s i cells hi hx hb hl hcl hn hf hfx hD hvs hq
    exact ⟨s.mem, cells, [], rfl, hi, hb, hl, fun _ _ => rfl, by simp, ⟨rfl, by simp⟩, by simp, by simp, Oth.refl _ _⟩
  | cons mm ms ih =>
    intro s i cells hi hx hb hl hcl hn hf hfx hD hvs hq
    simp only [List.length_cons] at hn
    obtain ⟨oq, hq1, hq2⟩ := hq
    have hmm := hf mm (by simp)
    have e0 : matched (some q) mm.1 mm.2 s = .ok (cut xs mm) s := readChars_run hq1 hq2 _ _ hmm
    obtain ⟨ob, n1, n2, i1, k1⟩ := newStr_tot hi (cut xs mm) (by simp only [cut, List.length_take, List.length_drop]; omega)
    have hbl : b < s.mem.length := by obtain ⟨rc, g⟩ := hb; exact lt_of_alive g
    have hb1 : Is (s.mem ++ [some ob]) b .var i cells := hb.kept k1 id (i1.stk_live (s := ⟨s.mem ++ [some ob], s.stk⟩) (mem_stkPtrs hx (by simp [V.ptr])))
    obtain ⟨m2, d, c, e2, i2, hc, h2, l2, k2⟩ := setIndex_tot (s := ⟨s.mem ++ [some ob], s.stk⟩) (v := .arr s.mem.length) (w := .arr s.mem.length) (own := own) (i := i)
      (by simpa [V.ptr] using i1) hx hb1 (.inl rfl) hl (by omega) hcl (.self id) (by intro j h; cases h)
    have hcv : ∃ u, c = .var u := by
      have hty : CellOk .var c := by
        rcases List.mem_append.1 (List.mem_of_getElem? hc) with h | h
        · obtain ⟨rc, g⟩ := hb
          exact InvM.typed hi b _ g c h
        · rw [List.eq_of_mem_replicate h]; simp [CellOk, freshCell]
      cases c with
      | raw y => exact absurd rfl hty.1
      | var u => exact ⟨u, rfl⟩
      | pair k u => cases hty
    obtain ⟨u, rfl⟩ := hcv
    rw [show max i (i + 1) = i + 1 by omega] at h2 l2
    have hlen : ((cells ++ List.replicate d (freshCell .var)).set i ((Cell.var u).put false (.arr s.mem.length))).length = cells.length + d := by simp
    have hcl2 : ∀ c ∈ (cells ++ List.replicate d (freshCell .var)).set i ((Cell.var u).put false (.arr s.mem.length)), c.Clean := by
      intro c hc
      rcases List.mem_or_eq_of_mem_set hc with h | rfl
      · rcases List.mem_append.1 h with h | h
        · exact hcl c h
        · rw [List.eq_of_mem_replicate h]; exact fresh_clean _
      · exact id
    have hm2 : (s.mem ++ [some ob]).length ≤ m2.length := k2.1
    simp only [List.length_append, List.length_singleton] at hm2
    have k12 : Oth (· = b) s.mem m2 := k1.oth.trans k2
    have hD2 : Deno m2 v (.arr q) := hD.kept k12 hvb fun p hp => i2.stk_live (s := ⟨m2, s.stk⟩) (hvs p hp)
    obtain ⟨rcq, hq3⟩ : Is m2 q oq.kind oq.size oq.cells := Is.kept ⟨oq.rc, hq1⟩ k12 hqb (hD2.live i2 hvs)
    obtain ⟨m3, cells', es, e3, i3, h3, l3, p3, q3, t3, nd3, f3, k3⟩ := ih (s := ⟨m2, s.stk⟩) i2 hx h2 (by omega) hcl2 (by omega) (fun y hy => hf y (by simp [hy])) hfx hD2 hvs ⟨_, hq3, hq2⟩
    have hci : cells'[i]? = some (.var (.arr s.mem.length)) := by
      rw [p3 i (by omega), List.getElem?_set_self (by simp; omega)]; rfl
    have f3' : ∀ e ∈ es, m2.length ≤ e := f3
    have k123 : Oth (· = b) s.mem m3 := (k1.oth.trans k2).trans k3
    have hstr : Is m3 s.mem.length ob.kind ob.size ob.cells := by
      refine Is.kept (m1 := s.mem ++ [some ob]) ⟨ob.rc, by simp⟩ (k2.trans k3) (by omega) ?_
      exact i3.cell_live (s := ⟨m3, s.stk⟩) h3 (List.mem_of_getElem? hci) (by simp [Cell.ptrs, V.ptr])
    refine ⟨m3, cells', s.mem.length :: es, ?_, i3, by rw [List.length_cons, show i + (ms.length + 1) = i + 1 + ms.length by omega]; exact h3, by simp only [List.length_cons]; omega, ?_, ?_, ⟨by simp [t3.1], ?_⟩, ?_, ?_, k123⟩
    · unfold putMatches
      refine (bind_eq e0).trans ?_
      refine (bind_eq n1).trans ?_
      refine (bind_eq e2).trans ?_
      exact e3
    · intro j hj
      rw [p3 j (by omega), List.getElem?_set_ne (by omega), List.getElem?_append_left (by omega)]
    · intro j e he
      cases j with
      | zero => simp only [List.getElem?_cons_zero, Option.some.injEq] at he; subst he; exact hci
      | succ j =>
        have := q3 j e (by simpa using he)
        rwa [show i + 1 + j = i + (j + 1) by omega] at this
    · intro j e ys he hy
      cases j with
      | zero =>
        simp only [List.map_cons, List.getElem?_cons_zero, Option.some.injEq] at he hy
        subst he hy
        obtain ⟨rc, g⟩ := hstr
        exact ⟨_, g, n2⟩
      | succ j => exact t3.2 j e ys (by simpa using he) (by simpa using hy)
    · refine List.nodup_cons.2 ⟨fun h => ?_, nd3⟩
      have := f3' _ h
      omega
    · intro e he
      rcases List.mem_cons.1 he with rfl | he
      · exact Nat.le_refl _
      · have := f3' e he
        omega

theorem newHeap_stk [Env α] {n : Nat} {k : Option Kind} {s : State α} {o : Obj α} (h : newHeap n k s = .ok s.mem.length ⟨s.mem ++ [some o], s.stk⟩) (stk : List (V α)) :
    newHeap n k ⟨s.mem, stk⟩ = .ok s.mem.length ⟨s.mem ++ [some o], stk⟩ := by
  obtain ⟨o', s1, ho, h2⟩ := bind_ok h
  obtain ⟨hs, ho'⟩ := liftO_ok ho
  have : o' = o := by
    cases hs
    injection h2 with _ h4
    have h5 := congrArg State.mem h4
    simpa using h5
  subst this
  unfold newHeap
  refine (bind_eq (b := o') (s1 := ⟨s.mem, stk⟩) ?_).trans rfl
  rw [ho']
  rfl

/-- Matches stored in a variable that is nil. -/
theorem putMatches_first [Env α] {x : Nat} {q : Addr} {v : V α} {xs : List α} {own : List Addr} {ms : List (Nat × Nat)} (hms : ms ≠ []) {s : State α} (hi : Inv s own) (hx : s.stk[x]? = some .nil)
    (hn : ms.length ≤ 2 ^ 30) (hf : ∀ m ∈ ms, m.1 + m.2 ≤ xs.length) (hfx : xs.length + 1 ≤ 2 ^ 30) (hD : Deno s.mem v (.arr q)) (hvs : ∀ p ∈ v.ptr.toList, p ∈ stkPtrs s.stk)
    (hq : ∃ o : Obj α, s.mem[q]? = some (some o) ∧ Elements o .char xs) :
    ∃ (mem' : List (Option (Obj α))) (b : Addr) (cells' : List (Cell α)) (es : List Addr), putMatches (some q) (.slot x) 0 ms s = .ok () ⟨mem', s.stk.set x (.arr b)⟩ ∧
      Inv ⟨mem', s.stk.set x (.arr b)⟩ own ∧ Is mem' b .var ms.length cells' ∧ (∀ (j : Nat) (e : Addr), es[j]? = some e → cells'[j]? = some (.var (.arr e))) ∧
      Texts mem' es (ms.map (cut xs)) ∧ (b :: es).Nodup ∧ (∀ e ∈ b :: es, s.mem.length ≤ e) ∧ Kept s.mem mem' := by
  have hlt := (List.getElem?_eq_some_iff.1 hx).1
  obtain ⟨mm, ms, rfl⟩ := List.exists_cons_of_ne_nil hms
  simp only [List.length_cons] at hn
  obtain ⟨oq, hq1, hq2⟩ := hq
  have hmm := hf mm (by simp)
  have e0 : matched (some q) mm.1 mm.2 s = .ok (cut xs mm) s := readChars_run hq1 hq2 _ _ hmm
  have hql := lt_of_alive hq1
  obtain ⟨ob, n1, n2, i1, k1⟩ := newStr_tot hi (cut xs mm) (by simp only [cut, List.length_take, List.length_drop]; omega)
  obtain ⟨o, h1, h2, h3, h4, h5, h6⟩ := newHeap_cells i1 (k := .var) (.inl rfl) (n := 1) (by omega)
  generalize hL : (s.mem ++ [some ob]).length = L at h1 h2
  have hL' : L = s.mem.length + 1 := by rw [← hL]; simp
  have hw : wrap (.slot x) 1 ⟨s.mem ++ [some ob], s.stk⟩ = .ok () ⟨s.mem ++ [some ob] ++ [some o], s.stk.set x (.arr L)⟩ := by
    unfold wrap
    refine (bind_eq (readSlot (s := ⟨s.mem ++ [some ob], s.stk⟩) hx)).trans ?_
    simp only
    refine (bind_eq (show newHeap 1 none _ = _ from h1)).trans ?_
    unfold writeLoc
    exact if_pos hlt
  have i2 : Inv ⟨s.mem ++ [some ob] ++ [some o], s.stk.set x (.arr L)⟩ (s.mem.length :: own) := by
    simpa using (wrap_keep (lk := false) (.slot x) 1).inv (own := s.mem.length :: own) (by simpa using i1) hw
  have hx2 : (s.stk.set x (.arr L))[x]? = some (.arr L) := List.getElem?_set_self hlt
  have hg2 : (s.mem ++ [some ob] ++ [some o])[L]? = some (some o) := by rw [← hL]; simp
  have hb2 : Is (s.mem ++ [some ob] ++ [some o]) L .var 1 o.cells := by
    refine ⟨o.rc, ?_⟩
    rw [hg2, ← h3, ← h4]
  have hcl : ∀ c ∈ o.cells, c.Clean := fun c hc => by rw [h6 c hc]; exact fresh_clean _
  have hc0 := h5 0 (by omega)
  have hl0 := (List.getElem?_eq_some_iff.1 hc0).1
  obtain ⟨m2, d, c, e2, i3, hc, g2, l2, k2⟩ := setIndex_tot (s := ⟨s.mem ++ [some ob] ++ [some o], s.stk.set x (.arr L)⟩) (v := .arr s.mem.length) (w := .arr s.mem.length) (own := own) (i := 0)
      (by simpa [V.ptr] using i2) hx2 hb2 (.inl rfl) (by omega) (by omega) hcl (.self id) (by intro j h; cases h)
  have hcf : c = freshCell .var := by
    rw [List.getElem?_append_left hl0, hc0] at hc
    exact (Option.some.inj hc).symm
  subst hcf
  simp only [show max 1 (0 + 1) = 1 by omega] at g2 l2
  have hcl2 : ∀ c ∈ (o.cells ++ List.replicate d (freshCell .var)).set 0 ((freshCell .var : Cell α).put false (.arr s.mem.length)), c.Clean := by
    intro c hc
    rcases List.mem_or_eq_of_mem_set hc with h | rfl
    · rcases List.mem_append.1 h with h | h
      · exact hcl c h
      · rw [List.eq_of_mem_replicate h]; exact fresh_clean _
    · exact id
  have hm2 : (s.mem ++ [some ob] ++ [some o]).length ≤ m2.length := k2.1
  simp only [List.length_append, List.length_singleton] at hm2
  have hk2 : Kept (s.mem ++ [some ob]) (s.mem ++ [some ob] ++ [some o]) := ⟨by simp, fun b o' _ hb ho => by
    rw [List.getElem?_append_left hb] at ho
    exact ⟨o', ho, rfl, rfl, rfl⟩⟩
  have k02 : Oth (· = L) s.mem m2 := (Kept.oth (Oth.trans k1 hk2)).trans k2
  have hvs2 : ∀ p ∈ v.ptr.toList, p ∈ stkPtrs (s.stk.set x (.arr L)) := fun p hp => by
    have h := stkPtrs_set hx (.arr L) p
    have h' := List.count_pos_iff.2 (hvs p hp)
    refine List.count_pos_iff.1 ?_
    simp only [V.ptr, Option.toList_none, List.count_nil] at h
    omega
  have hvL : ∀ p j, v = .ref p j → p ≠ L := by
    intro p j hv hp
    obtain ⟨o, ho⟩ := hi.stk_live (hvs p (by simp [hv, V.ptr]))
    have := lt_of_alive ho
    omega
  have hD2 : Deno m2 v (.arr q) := hD.kept k02 hvL fun p hp => i3.stk_live (s := ⟨m2, s.stk.set x (.arr L)⟩) (hvs2 p hp)
  obtain ⟨rcq, hq3⟩ : Is m2 q oq.kind oq.size oq.cells := Is.kept ⟨oq.rc, hq1⟩ k02 (by omega) (hD2.live i3 hvs2)
  obtain ⟨m3, cells', es, e3, i4, g3, l3, p3, q3, t3, nd3, f3, k3⟩ := putMatches_tot (xs := xs) (show q ≠ L by omega) hvL ms (s := ⟨m2, s.stk.set x (.arr L)⟩) i3 hx2 g2 (by simp; omega) hcl2 (by omega)
    (fun y hy => hf y (by simp [hy])) hfx hD2 hvs2 ⟨_, hq3, hq2⟩
  have f3' : ∀ e ∈ es, m2.length ≤ e := f3
  have hci : cells'[0]? = some (.var (.arr s.mem.length)) := by
    rw [p3 0 (by omega), List.getElem?_set_self (by simp; omega)]; rfl
  have hstr : Is m3 s.mem.length ob.kind ob.size ob.cells := by
    refine Is.kept (m1 := s.mem ++ [some ob] ++ [some o]) ⟨ob.rc, by simp⟩ (k2.trans k3) (by omega) ?_
    exact i4.cell_live (s := ⟨m3, s.stk.set x (.arr L)⟩) g3 (List.mem_of_getElem? hci) (by simp [Cell.ptrs, V.ptr])
  refine ⟨m3, L, cells', s.mem.length :: es, ?_, i4, by rw [List.length_cons, show ms.length + 1 = 1 + ms.length by omega]; exact g3, ?_, ⟨by simp [t3.1], ?_⟩, ?_, ?_, ?_⟩
  · unfold putMatches
    refine (bind_eq e0).trans ?_
    refine (bind_eq n1).trans ?_
    refine (bind_eq (b := ()) (s1 := ⟨m2, s.stk.set x (.arr L)⟩) ?_).trans ?_
    · have := setIndex_first (s := ⟨s.mem ++ [some ob], s.stk⟩) hx (.arr s.mem.length) (o := o) (fun stk => by
        rw [hL]
        have := newHeap_stk (s := ⟨s.mem ++ [some ob], s.stk⟩) (by rw [hL]; exact h1) stk
        rwa [hL] at this) h4
      rw [hL] at this
      exact this.trans e2
    · exact e3
  · intro j e he
    cases j with
    | zero => simp only [List.getElem?_cons_zero, Option.some.injEq] at he; subst he; exact hci
    | succ j =>
      have := q3 j e (by simpa using he)
      rwa [show 1 + j = j + 1 by omega] at this
  · intro j e ys he hy
    cases j with
    | zero =>
      simp only [List.map_cons, List.getElem?_cons_zero, Option.some.injEq] at he hy
      subst he hy
      obtain ⟨rc, g⟩ := hstr
      exact ⟨_, g, n2⟩
    | succ j => exact t3.2 j e ys (by simpa using he) (by simpa using hy)
  · refine List.nodup_cons.2 ⟨?_, List.nodup_cons.2 ⟨fun h => ?_, nd3⟩⟩
    · intro h
      rcases List.mem_cons.1 h with h | h
      · omega
      · have := f3' _ h; omega
    · have := f3' _ h; omega
  · intro e he
    rcases List.mem_cons.1 he with rfl | he
    · omega
    · rcases List.mem_cons.1 he with rfl | he
      · exact Nat.le_refl _
      · have := f3' e he; omega
  · exact Oth.fresh (k02.trans k3) (by omega)

end Libube.Mem

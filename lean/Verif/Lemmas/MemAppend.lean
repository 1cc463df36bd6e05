import Verif.Lemmas.MemExec

/-! # presize and append: what they do to an array of numbers -/

namespace Libube.Mem

variable {α : Type} {P : Prop}

/-- How `resize` finds its way to the array. -/
theorem resize_arr [Env α] {k : Nat} {a : Addr} {m : Nat} {s : State α} (hk : s.stk[k]? = some (.arr a)) :
    resize (.slot k) m s = heapResize a m s := by
  unfold resize
  rw [if_neg (show ¬ ((m : Int) < 0) by omega)]
  rw [bind_eq (dereference_arr (readSlot hk)), bind_eq (readSlot hk)]
  simp only [bind_eq (readSlot hk), bind_eq (heapOf_arr a s)]
  rfl

theorem heapResize_obj [Env α] {a : Addr} {m : Nat} {s : State α} {o o' : Obj α} (h : s.mem[a]? = some (some o))
    (hr : resizeObj o m = .ok o') : heapResize a m s = .ok () (upd s a o') := by
  unfold heapResize
  rw [bind_eq (obj_eq h), hr]
  rfl

/-- The places an array needs for `m` elements. -/
def need (k : Kind) (m : Nat) : Int := if k = .char then (m : Int) + 1 else m

theorem need_mono (k : Kind) {i m : Nat} (h : i ≤ m) : need k i ≤ need k m := by
  unfold need
  split <;> omega

theorem growCells_length {k : Kind} {cells cells' : List (Cell α)} {c : Int} (h : growCells k cells c = .ok cells') :
    (cells'.length : Int) = max (cells.length : Int) c := by
  unfold growCells at h
  split at h
  · next h0 =>
    split at h
    · cases h
    · cases h
      rw [List.length_replicate, h0]
      omega
  · split at h
    · cases h
      simp
      omega
    · cases h
      omega

theorem terminate_length [Env α] {k : Kind} {cells cells' : List (Cell α)} {n : Nat} (h : terminate k cells n = .ok cells') :
    cells'.length = cells.length := by
  unfold terminate at h
  split at h
  · split at h
    · cases h
      simp
    · cases h
  · cases h
    rfl

theorem resizeObj_length [Env α] {o o' : Obj α} {m : Nat} (h : resizeObj o m = .ok o') :
    o'.kind = o.kind ∧ ∃ c, Alloc.allocSize (need o.kind m) = .ok c ∧ (o'.cells.length : Int) = max (o.cells.length : Int) c := by
  unfold resizeObj at h
  unfold need
  cases hc : Alloc.allocSize (if o.kind = .char then (m : Int) + 1 else m) with
  | ok c =>
    rw [hc, Outcome.bind_ok] at h
    cases hg : growCells o.kind o.cells c with
    | ok cells =>
      rw [hg, Outcome.bind_ok] at h
      cases ht : terminate o.kind cells m with
      | ok cells' =>
        rw [ht, Outcome.bind_ok] at h
        cases h
        exact ⟨rfl, c, rfl, by rw [terminate_length ht]; exact growCells_length hg⟩
      | _ => rw [ht] at h; cases h
    | _ => rw [hg] at h; cases h
  | _ => rw [hc] at h; cases h

/-- No more room is needed for fewer elements. -/
theorem resizeObj_same [Env α] {o o1 o2 : Obj α} {i m : Nat} (h1 : resizeObj o m = .ok o1) {p : Obj α} (hk : p.kind = o.kind)
    (hp : (o1.cells.length : Int) ≤ p.cells.length) (h2 : resizeObj p i = .ok o2) (hi : i ≤ m) (hm : m + 1 ≤ 2 ^ 30) :
    o2.cells.length = p.cells.length := by
  obtain ⟨-, c, hc, hl⟩ := resizeObj_length h1
  obtain ⟨-, d, hd, hl'⟩ := resizeObj_length h2
  have hb0 : ∀ j : Nat, 0 ≤ need o.kind j := fun j => by unfold need; split <;> omega
  have hb : ∀ j : Nat, j ≤ m → need o.kind j ≤ 2 ^ 30 := fun j hj => by unfold need; split <;> omega
  obtain ⟨c', hc', hlc⟩ := Alloc.allocSize_least _ (hb0 m) (hb m (Nat.le_refl _))
  obtain ⟨d', hd', hld⟩ := Alloc.allocSize_least _ (hb0 i) (hb i hi)
  rw [hk] at hd
  rw [hc] at hc'
  rw [hd] at hd'
  cases hc'
  cases hd'
  have := Alloc.LeastPow2.mono hld hlc (need_mono _ hi)
  omega

/-- The numbers an array holds after `presize`: a string has a NUL at place `m`. -/
def presized [Env α] (k : Kind) (m : Nat) (xs : List α) : List α := if k = .char then xs.set m Env.nul else xs

theorem presized_length [Env α] (k : Kind) (m : Nat) (xs : List α) : (presized k m xs).length = xs.length := by
  unfold presized
  split <;> simp

theorem presize_run [Env α] {k : Nat} {a : Addr} {n m : Nat} {s : State α} {o : Obj α} {xs : List α}
    (hk : s.stk[k]? = some (.arr a)) (h : s.mem[a]? = some (some o)) (hh : Has P o n xs) (hx : xs.length = n)
    (hn : n + 1 ≤ 2 ^ 30) (hm : m + 1 ≤ 2 ^ 30) :
    ∃ o1 o2 : Obj α, presize (.slot k) m s = .ok () (upd s a o2) ∧ Has True o2 n (presized o.kind m xs) ∧ o2.kind = o.kind ∧
      o2.rc = o.rc ∧ resizeObj o m = .ok o1 ∧ o1.cells.length ≤ o2.cells.length := by
  obtain ⟨c1, e1, r1, l1, k1, z1⟩ := resizeObj_run (o := o) (m := m) hh.num hh.raw hm
  obtain ⟨c2, e2, r2, l2, k2, z2⟩ := resizeObj_run (o := { o with size := m, cells := c1 }) (m := n) hh.num r1 hn
  refine ⟨_, { o with size := n, cells := c2 }, ?_, ⟨hh.num, rfl, by rw [presized_length]; omega, fun i x hi => ?_, l2, r2, fun _ => z2⟩, rfl, rfl, e1, ?_⟩
  · unfold presize
    refine (bind_eq (readSlot hk)).trans ?_
    refine (bind_eq (sizeV_arr h)).trans ?_
    rw [hh.size]
    refine (bind_eq ((resize_arr hk).trans (heapResize_obj h e1))).trans ?_
    refine ((resize_arr (s := upd s a _) hk).trans (heapResize_obj (upd_get h _) e2)).trans ?_
    rw [upd_upd]
  · have hil : i < n := by
      have := (List.getElem?_eq_some_iff.1 hi).1
      rwa [presized_length, hx] at this
    refine k2 i _ (.inl hil) ?_
    by_cases hc : o.kind = .char ∧ m = i
    · obtain ⟨hc, rfl⟩ := hc
      unfold presized at hi
      rw [if_pos hc, List.getElem?_set_self (by omega)] at hi
      cases hi
      exact z1 hc
    · refine k1 i _ ?_ (hh.elem i x ?_)
      · by_cases hc' : o.kind = .char
        · have : m ≠ i := fun h => hc ⟨hc', h⟩
          omega
        · exact .inr (.inl hc')
      · unfold presized at hi
        split at hi
        · next hc' =>
          rwa [List.getElem?_set_ne (fun h => hc ⟨hc', h⟩)] at hi
        · exact hi
  · obtain ⟨-, c, -, hl⟩ := resizeObj_length e2
    simp only at hl
    have : (c1.length : Int) ≤ c2.length := by omega
    simpa using this

theorem fillRaw_run [Env α] {a : Addr} {N : Nat} (ys : List α) : ∀ {s : State α} {o : Obj α} {xs : List α},
    s.mem[a]? = some (some o) → Has P o N xs → xs.length + ys.length ≤ N →
    ∃ o' : Obj α, fillRaw a xs.length ys s = .ok () (upd s a o') ∧ Has P o' N (xs ++ ys) ∧ o'.kind = o.kind ∧ o'.rc = o.rc := by
  induction ys with
  | nil =>
    intro s o xs h hh _
    refine ⟨o, ?_, by simpa using hh, rfl, rfl⟩
    rw [upd_self h]
    rfl
  | cons y ys ih =>
    intro s o xs h hh hl
    simp only [List.length_cons] at hl
    obtain ⟨z, hz⟩ := hh.place (i := xs.length) (by omega)
    have h1 := setRaw_run (x := y) h hz
    have h2 := hh.snoc (by omega) y
    obtain ⟨o', e, g, gk, gr⟩ := ih (upd_get h _) h2 (by simp; omega)
    refine ⟨o', ?_, by simpa using g, gk, gr⟩
    unfold fillRaw
    refine (bind_eq h1).trans ?_
    rw [List.length_append, List.length_singleton] at e
    refine e.trans ?_
    rw [upd_upd]

theorem heapAppend_run [Env α] {a : Addr} {n : Nat} {s : State α} {o : Obj α} {xs : List α} (ys : List α)
    (h : s.mem[a]? = some (some o)) (hh : Has P o n xs) (hx : xs.length = n) (hn : n + ys.length + 1 ≤ 2 ^ 30) :
    ∃ o' : Obj α, heapAppend a o.kind ys s = .ok () (upd s a o') ∧ Has True o' (n + ys.length) (xs ++ ys) ∧ o'.kind = o.kind ∧
      o'.rc = o.rc := by
  obtain ⟨o1, e1, g1, k1, r1, -⟩ := heapResize_run (m := n + ys.length) h hh hn
  rw [List.take_of_length_le (by omega)] at g1
  obtain ⟨o2, e2, g2, k2, r2⟩ := fillRaw_run ys (upd_get h o1) g1 (by omega)
  refine ⟨o2, ?_, g2, k2.trans k1, r2.trans r1⟩
  unfold heapAppend
  refine (bind_eq (obj_eq h)).trans ?_
  rw [hh.size]
  refine (bind_eq e1).trans ?_
  rw [if_pos (.inl rfl), ← hx]
  refine e2.trans ?_
  rw [upd_upd]

theorem append_run [Env α] {k : Nat} {a : Addr} {n : Nat} {s : State α} {o : Obj α} {xs : List α} (ys : List α)
    (hk : s.stk[k]? = some (.arr a)) (h : s.mem[a]? = some (some o)) (hh : Has P o n xs) (hx : xs.length = n)
    (hn : n + ys.length + 1 ≤ 2 ^ 30) :
    ∃ o' : Obj α, append (.slot k) o.kind ys s = .ok () (upd s a o') ∧ Has True o' (n + ys.length) (xs ++ ys) ∧ o'.kind = o.kind ∧
      o'.rc = o.rc := by
  obtain ⟨o', e, g⟩ := heapAppend_run ys h hh hx hn
  refine ⟨o', ?_, g⟩
  unfold append
  rw [bind_eq (array_arr hk), bind_eq (readSlot hk), bind_eq (heapOf_arr a s)]
  exact e

end Libube.Mem

import Verif.Lemmas.MemExec

/-! # Inserting and removing in arrays of numbers -/

namespace Libube.Mem

variable {α β γ : Type} {P : Prop}

/-- What becomes of an element that is assigned to another place of its array. -/
def recell [Env α] (k : Kind) : Cell α → Cell α
  | .raw (some x) => .raw (some (Env.conv k k x))
  | c => c

theorem recell_raw [Env α] (k : Kind) (y : Option α) : ∃ z, recell k (.raw y) = .raw z := by
  cases y <;> exact ⟨_, rfl⟩

theorem map_conv [Env α] {k : Kind} (hid : ∀ x : α, Env.conv k k x = x) (xs : List α) : xs.map (Env.conv k k) = xs := by
  rw [List.map_congr_left (g := id) (fun x _ => hid x)]
  simp

theorem moveUp_run [Env α] {k : Nat} {a : Addr} (d : Nat) (c : Nat) : ∀ (i : Nat) (s : State α)
    (o : Obj α), s.stk[k]? = some (.arr a) → s.mem[a]? = some (some o) → 1 ≤ o.rc → IsNum o.kind →
    c + d ≤ i + 1 → (∀ q, q ≤ i → i < q + c → ∃ x, o.cells[q - d]? = some (.raw (some x))) →
    (∀ q, q ≤ i → i < q + c → ∃ y, o.cells[q]? = some (.raw y)) →
    ∃ cells' : List (Cell α), moveUp (.slot k) d i c s = .ok () (upd s a { o with cells := cells' }) ∧
      (∀ q : Nat, cells'[q]? = if q ≤ i ∧ i < q + c then (o.cells[q - d]?).map (recell o.kind) else o.cells[q]?) := by
  induction c with
  | zero =>
    intro i s o hk h hr hn _ _ _
    refine ⟨o.cells, ?_, fun q => ?_⟩
    · rw [upd_self h]
      rfl
    · rw [if_neg (by omega)]
  | succ c ih =>
    intro i s o hk h hr hn hci hsrc hdst
    obtain ⟨x, hx⟩ := hsrc i (Nat.le_refl _) (by omega)
    obtain ⟨y, hy⟩ := hdst i (Nat.le_refl _) (by omega)
    have hat : at' (.arr a) ((i : Int) - d) s = .ok (.ref a (i - d)) (upd s a { o with rc := o.rc + 1 }) := by
      have : (i : Int) - d = ((i - d : Nat) : Int) := by omega
      rw [this]
      exact at'_arr h
    have hli : i < o.cells.length := (List.getElem?_eq_some_iff.1 hy).1
    have hset : setAt (.arr a) i (.ref a (i - d)) (upd s a { o with rc := o.rc + 1 }) =
        .ok () (upd s a { o with cells := o.cells.set i (.raw (some (Env.conv o.kind o.kind x))) }) := by
      rw [setAt_same (o := { o with rc := o.rc + 1 }) (upd_get h _) hn hy hx (by simp; omega), upd_upd]
      simp
    have ho1 := upd_get h { o with cells := o.cells.set i (.raw (some (Env.conv o.kind o.kind x))) }
    obtain ⟨cells', h1, h2⟩ := ih (i - 1) (upd s a { o with cells := o.cells.set i (.raw (some (Env.conv o.kind o.kind x))) })
      { o with cells := o.cells.set i (.raw (some (Env.conv o.kind o.kind x))) } hk ho1 hr hn (by omega)
      (fun q hq1 hq2 => by
        obtain ⟨z, hz⟩ := hsrc q (by omega) (by omega)
        by_cases hqi : i = q - d
        · omega
        · exact ⟨z, by simp only; rw [List.getElem?_set_ne hqi]; exact hz⟩)
      (fun q hq1 hq2 => by
        obtain ⟨z, hz⟩ := hdst q (by omega) (by omega)
        by_cases hqi : i = q
        · exact ⟨some (Env.conv o.kind o.kind x), by simp only; rw [← hqi]; exact List.getElem?_set_self hli⟩
        · exact ⟨z, by simp only; rw [List.getElem?_set_ne hqi]; exact hz⟩)
    refine ⟨cells', ?_, fun q => ?_⟩
    · unfold moveUp
      rw [bind_eq (readSlot hk), bind_eq hat, bind_eq hset, h1, upd_upd]
    · rw [h2 q]
      simp only
      by_cases hqi : i = q
      · subst hqi
        by_cases hc : c = 0
        · rw [if_neg (by omega), if_pos (by omega), List.getElem?_set_self hli, hx]
          rfl
        · by_cases hi0 : i = 0
          · omega
          · rw [if_neg (by omega), if_pos (by omega), List.getElem?_set_self hli, hx]
            rfl
      · by_cases hq : q ≤ i ∧ i < q + (c + 1)
        · rw [if_pos hq, if_pos (by omega), List.getElem?_set_ne (by omega)]
        · rw [if_neg hq, if_neg (by omega), List.getElem?_set_ne hqi]

theorem moveDown_run [Env α] {k : Nat} {a : Addr} (c : Nat) : ∀ (i : Nat) (s : State α)
    (o : Obj α), s.stk[k]? = some (.arr a) → s.mem[a]? = some (some o) → 1 ≤ o.rc → IsNum o.kind → 1 ≤ i →
    (∀ q, i ≤ q → q < i + c → ∃ x, o.cells[q]? = some (.raw (some x))) →
    (∃ y, o.cells[i - 1]? = some (.raw y)) →
    ∃ cells' : List (Cell α), moveDown (.slot k) i c s = .ok () (upd s a { o with cells := cells' }) ∧
      (∀ q : Nat, cells'[q]? = if i ≤ q + 1 ∧ q + 1 < i + c then (o.cells[q + 1]?).map (recell o.kind) else o.cells[q]?) := by
  induction c with
  | zero =>
    intro i s o hk h hr hn _ _ _
    refine ⟨o.cells, ?_, fun q => ?_⟩
    · rw [upd_self h]
      rfl
    · rw [if_neg (by omega)]
  | succ c ih =>
    intro i s o hk h hr hn hi hsrc ⟨y, hy⟩
    obtain ⟨x, hx⟩ := hsrc i (Nat.le_refl _) (by omega)
    have hat : at' (.arr a) (i : Int) s = .ok (.ref a i) (upd s a { o with rc := o.rc + 1 }) := at'_arr h
    have hli : i - 1 < o.cells.length := (List.getElem?_eq_some_iff.1 hy).1
    have hset : setAt (.arr a) ((i : Int) - 1) (.ref a i) (upd s a { o with rc := o.rc + 1 }) =
        .ok () (upd s a { o with cells := o.cells.set (i - 1) (.raw (some (Env.conv o.kind o.kind x))) }) := by
      have : (i : Int) - 1 = ((i - 1 : Nat) : Int) := by omega
      rw [this]
      rw [setAt_same (o := { o with rc := o.rc + 1 }) (upd_get h _) hn hy hx (by simp; omega), upd_upd]
      simp
    have ho1 := upd_get h { o with cells := o.cells.set (i - 1) (.raw (some (Env.conv o.kind o.kind x))) }
    obtain ⟨cells', h1, h2⟩ := ih (i + 1) (upd s a { o with cells := o.cells.set (i - 1) (.raw (some (Env.conv o.kind o.kind x))) })
      { o with cells := o.cells.set (i - 1) (.raw (some (Env.conv o.kind o.kind x))) } hk ho1 hr hn (by omega)
      (fun q hq1 hq2 => by
        obtain ⟨z, hz⟩ := hsrc q (by omega) (by omega)
        exact ⟨z, by simp only; rw [List.getElem?_set_ne (by omega)]; exact hz⟩)
      ⟨some x, by simp only [Nat.add_sub_cancel]; rw [List.getElem?_set_ne (by omega)]; exact hx⟩
    refine ⟨cells', ?_, fun q => ?_⟩
    · unfold moveDown
      rw [bind_eq (readSlot hk), bind_eq hat, bind_eq hset, h1, upd_upd]
    · rw [h2 q]
      simp only
      by_cases hqi : i - 1 = q
      · subst hqi
        rw [if_neg (by omega), if_pos (by omega), List.getElem?_set_self hli, show i - 1 + 1 = i by omega, hx]
        rfl
      · by_cases hq : i ≤ q + 1 ∧ q + 1 < i + (c + 1)
        · rw [if_pos hq, if_pos (by omega), List.getElem?_set_ne (by omega)]
        · rw [if_neg hq, if_neg (by omega), List.getElem?_set_ne hqi]

/-- Copying the elements of another array. -/
theorem copyIn_run [Env α] {k kv : Nat} {a b : Addr} (hab : a ≠ b) (p : Nat) (c : Nat) : ∀ (i : Nat) (s : State α)
    (o ob : Obj α) (ys : List α), s.stk[k]? = some (.arr a) → s.stk[kv]? = some (.arr b) →
    s.mem[a]? = some (some o) → s.mem[b]? = some (some ob) → 1 ≤ o.rc → 1 ≤ ob.rc → IsNum o.kind →
    Has P ob ys.length ys → i + c = ys.length →
    (∀ q, p + i ≤ q → q < p + i + c → ∃ y, o.cells[q]? = some (.raw y)) →
    ∃ cells' : List (Cell α), copyIn (.slot k) (.slot kv) p i c s = .ok () (upd s a { o with cells := cells' }) ∧
      (∀ q : Nat, cells'[q]? = if p + i ≤ q ∧ q < p + ys.length then
        (ys[q - p]?).map (fun y => Cell.raw (some (Env.conv ob.kind o.kind y))) else o.cells[q]?) := by
  induction c with
  | zero =>
    intro i s o ob ys hk hkv h hb hr hrb hn hys hic hdst
    refine ⟨o.cells, ?_, fun q => ?_⟩
    · rw [upd_self h]
      rfl
    · rw [if_neg (by omega)]
  | succ c ih =>
    intro i s o ob ys hk hkv h hb hr hrb hn hys hic hdst
    have hi : i < ys.length := by omega
    have hyi : ys[i]? = some ys[i] := List.getElem?_eq_getElem hi
    obtain ⟨y, hy⟩ := hdst (p + i) (Nat.le_refl _) (by omega)
    have hli : p + i < o.cells.length := (List.getElem?_eq_some_iff.1 hy).1
    have hix := index_in (i := i) hkv hb (by rw [hys.size]; exact hi)
    have ha1 : (upd s b { ob with rc := ob.rc + 1 }).mem[a]? = some (some o) := (upd_other (Ne.symm hab) _).trans h
    have hset : setAt (.arr a) ((p : Int) + i) (.ref b i) (upd s b { ob with rc := ob.rc + 1 }) =
        .ok () (upd s a { o with cells := o.cells.set (p + i) (.raw (some (Env.conv ob.kind o.kind ys[i]))) }) := by
      have : (p : Int) + i = ((p + i : Nat) : Int) := by omega
      rw [this]
      rw [setAt_other (p := { ob with rc := ob.rc + 1 }) hab ha1 hn hy (upd_get hb _) hys.num (hys.elem i _ hyi) hr
        (by simp; omega)]
      simp only [Nat.add_sub_cancel]
      rw [upd_comm hab, upd_upd, upd_self hb]
    have hb1 : (upd s a { o with cells := o.cells.set (p + i) (.raw (some (Env.conv ob.kind o.kind ys[i]))) }).mem[b]? =
      some (some ob) := (upd_other hab _).trans hb
    obtain ⟨cells', h1, h2⟩ := ih (i + 1)
      (upd s a { o with cells := o.cells.set (p + i) (.raw (some (Env.conv ob.kind o.kind ys[i]))) })
      { o with cells := o.cells.set (p + i) (.raw (some (Env.conv ob.kind o.kind ys[i]))) } ob ys hk hkv
      (upd_get h _) hb1 hr hrb hn hys (by omega)
      (fun q hq1 hq2 => by
        obtain ⟨z, hz⟩ := hdst q (by omega) (by omega)
        exact ⟨z, by simp only; rw [List.getElem?_set_ne (by omega)]; exact hz⟩)
    refine ⟨cells', ?_, fun q => ?_⟩
    · unfold copyIn
      rw [bind_eq (readSlot hkv), bind_eq (sizeV_arr hb), if_pos (show i < ob.size by rw [hys.size]; exact hi),
        bind_eq hix]
      have hrk : readLoc (.slot k) (upd s b { ob with rc := ob.rc + 1 }) = .ok (.arr a) _ := readSlot hk
      rw [bind_eq hrk, bind_eq hset, h1, upd_upd]
    · rw [h2 q]
      simp only
      by_cases hqi : p + i = q
      · subst hqi
        rw [if_neg (by omega), if_pos (by omega), List.getElem?_set_self hli, Nat.add_sub_cancel_left, hyi]
        rfl
      · by_cases hq : p + i ≤ q ∧ q < p + ys.length
        · rw [if_pos hq, if_pos (by omega)]
        · rw [if_neg hq, if_neg (by omega), List.getElem?_set_ne hqi]

theorem Has.of_get [Env α] {o : Obj α} {n : Nat} {xs : List α} (h1 : IsNum o.kind) (h2 : o.size = n)
    (h3 : xs.length = n) (h4 : ∀ (i : Nat) (x : α), xs[i]? = some x → o.cells[i]? = some (.raw (some x)))
    (h5 : ∀ (i : Nat) (c : Cell α), o.cells[i]? = some c → ∃ y, c = .raw y)
    (h6 : P → o.kind = .char → o.cells[n]? = some (.raw (some Env.nul))) : Has P o n xs := by
  refine ⟨h1, h2, by omega, h4, ?_, fun c hc => ?_, h6⟩
  · rcases Nat.eq_zero_or_pos n with h0 | h0
    · omega
    · have hl : n - 1 < xs.length := by omega
      have := h4 (n - 1) _ (List.getElem?_eq_getElem hl)
      have := (List.getElem?_eq_some_iff.1 this).1
      omega
  · obtain ⟨i, hi⟩ := List.getElem?_of_mem hc
    exact h5 i c hi

theorem Has.get_raw [Env α] {o : Obj α} {n : Nat} {xs : List α} (h : Has P o n xs) (i : Nat) (c : Cell α)
    (hc : o.cells[i]? = some c) : ∃ y, c = .raw y := h.raw c (List.mem_of_getElem? hc)

/-- The list that `insert` makes. -/
theorem spliced [Env α] {o o' : Obj α} {n m p : Nat} {xs ys : List α} (hh : Has P o (n + m) xs) (hx : xs.length = n)
    (hy : ys.length = m) (hp : p ≤ n) (hk : o'.kind = o.kind) (hs : o'.size = o.size)
    (hc : ∀ q : Nat, o'.cells[q]? = if p ≤ q ∧ q < p + m then (ys[q - p]?).map (fun y => Cell.raw (some y))
      else if p + m ≤ q ∧ q < n + m then (o.cells[q - m]?).map (recell o.kind) else o.cells[q]?) :
    Has P o' (n + m) (xs.take p ++ ys ++ (xs.drop p).map (Env.conv o.kind o.kind)) := by
  refine Has.of_get (by rw [hk]; exact hh.num) (hs.trans hh.size) (by simp; omega) (fun i x hi => ?_)
    (fun i c hi => ?_) (fun hP hch => ?_)
  · rw [hc i]
    by_cases h1 : i < p
    · rw [if_neg (by omega), if_neg (by omega)]
      refine hh.elem i x ?_
      rw [List.append_assoc, List.getElem?_append_left (by simp; omega), List.getElem?_take, if_pos h1] at hi
      exact hi
    · by_cases h2 : i < p + m
      · rw [if_pos (by omega)]
        rw [List.append_assoc, List.getElem?_append_right (by simp; omega), List.getElem?_append_left
          (by simp; omega)] at hi
        rw [show i - (List.take p xs).length = i - p by simp; omega] at hi
        rw [hi]
        rfl
      · have hlt : i < n + m := by
          have := (List.getElem?_eq_some_iff.1 hi).1
          simp at this
          omega
        rw [if_neg (by omega), if_pos (by omega)]
        rw [List.getElem?_append_right (by simp; omega), List.getElem?_map, List.getElem?_drop,
          show p + (i - (xs.take p ++ ys).length) = i - m by simp; omega] at hi
        obtain ⟨y, hy', rfl⟩ := Option.map_eq_some_iff.1 hi
        rw [hh.elem (i - m) y hy']
        rfl
  · rw [hc i] at hi
    split at hi
    · cases h : ys[i - p]? with
      | none => rw [h] at hi; cases hi
      | some y => rw [h] at hi; cases hi; exact ⟨_, rfl⟩
    · split at hi
      · obtain ⟨c', hc', rfl⟩ := Option.map_eq_some_iff.1 hi
        obtain ⟨y, rfl⟩ := hh.get_raw _ c' hc'
        exact recell_raw _ y
      · exact hh.get_raw _ c hi
  · rw [hc, if_neg (by omega), if_neg (by omega)]
    exact hh.nul hP (by rw [← hk]; exact hch)

theorem kindAt_arr {k : Nat} {a : Addr} {s : State α} {o : Obj α} (hk : s.stk[k]? = some (.arr a))
    (h : s.mem[a]? = some (some o)) : kindAt (.slot k) s = .ok (some o.kind) s := by
  unfold kindAt
  rw [bind_eq (readSlot hk), bind_eq (heapOf_arr a s)]
  simp only [bind_eq (obj_eq h)]
  rfl

/-- The numeric case of `insert`. -/
def insertNums [Env α] (l lv : Loc) (v : V α) (p n : Nat) : M α Unit := do
  let m ← sizeV v
  resize l (n + m)
  let n' ← sizeV (← readLoc l)
  let m' ← sizeV (← readLoc lv)
  moveUp l m' (n' - 1) (n' - (p + m'))
  copyIn l lv p 0 (← sizeV (← readLoc lv))

theorem insert_eq [Env α] {k : Nat} {a : Addr} {n p : Nat} {s : State α} {o : Obj α} {xs : List α} {v : V α}
    (hk : s.stk[k]? = some (.arr a)) (h : s.mem[a]? = some (some o)) (hh : Has P o n xs) (hp : p ≤ n) :
    insert (.slot k) v p s = withVar v (fun lv => insertNums (.slot k) lv v p n) s := by
  have hkv : ({ mem := s.mem, stk := s.stk ++ [v] } : State α).stk[k]? = some (.arr a) := slot_append hk
  have hv : ({ mem := s.mem, stk := s.stk ++ [v] } : State α).mem[a]? = some (some o) := h
  unfold insert withVar
  simp only
  rw [bind_eq (readSlot hkv), bind_eq (sizeV_arr hv), hh.size, if_neg (by omega), bind_eq (kindAt_arr hkv hv)]
  have hnum := hh.num
  generalize o.kind = kk at hnum
  cases kk <;> simp [IsNum] at hnum <;> rfl

/-- The last count of an array of numbers. -/
theorem detach_last {mem : List (Option (Obj α))} {stk : List (V α)} {o : Obj α} (hr : o.rc = 1)
    (hp : o.ptrs = []) : detachV (.arr mem.length) { mem := mem ++ [some o], stk := stk } =
      .ok () { mem := mem ++ [none], stk := stk } := by
  unfold detachV
  simp [bind_run, M.bind, getMem, V.ptr, release, hr, hp, liftO, setMem]

theorem Has.ptrs [Env α] {o : Obj α} {n : Nat} {xs : List α} (h : Has P o n xs) : o.ptrs = [] := by
  refine flatMap_ptrs_nil fun c hc => ?_
  obtain ⟨y, rfl⟩ := h.raw c hc
  rfl

/-- What is left of an array that loses a count. -/
def dec (o : Obj α) : Option (Obj α) := if o.rc = 1 then none else some { o with rc := o.rc - 1 }

/-- Taking a count from an array of numbers. -/
theorem detach_dec {v : V α} {a : Addr} {s : State α} {o : Obj α} (hp : v.ptr = some a)
    (h : s.mem[a]? = some (some o)) (hr : 1 ≤ o.rc) (hn : o.ptrs = []) :
    detachV v s = .ok () { s with mem := s.mem.set a (dec o) } := by
  unfold detachV dec
  have h0 : ¬ o.rc = 0 := by omega
  by_cases h1 : o.rc = 1
  · simp [bind_run, M.bind, getMem, hp, release, h, h1, hn, liftO, setMem]
  · simp [bind_run, M.bind, getMem, hp, release, h, h0, h1, liftO, setMem]

/-- Whatever conversion to their own type does to the elements. -/
theorem insert_arr_conv [Env α] {k : Nat} {a b : Addr} {n m p : Nat} {s : State α} {o ob : Obj α}
    {xs ys : List α} (hk : s.stk[k]? = some (.arr a)) (h : s.mem[a]? = some (some o)) (hh : Has P o n xs)
    (hx : xs.length = n) (hab : a ≠ b) (hb : s.mem[b]? = some (some ob)) (hy : Has Q ob m ys) (hm : ys.length = m)
    (hp : p ≤ n) (hr : 1 ≤ o.rc) (hrb : 1 ≤ ob.rc) (hn : n + m + 1 ≤ 2 ^ 30) :
    ∃ o' : Obj α, insert (.slot k) (.arr b) p s = .ok () { mem := (upd s a o').mem.set b (dec ob), stk := s.stk } ∧
      Has P o' (n + m) (xs.take p ++ ys.map (Env.conv ob.kind o.kind) ++ (xs.drop p).map (Env.conv o.kind o.kind)) ∧ o'.kind = o.kind ∧
      o'.rc = o.rc := by
  rw [insert_eq hk h hh hp]
  let s1 : State α := { mem := s.mem, stk := s.stk ++ [.arr b] }
  have hk1 : s1.stk[k]? = some (.arr a) := slot_append hk
  have hkv1 : s1.stk[s.stk.length]? = some (.arr b) := by simp [s1]
  have h1 : s1.mem[a]? = some (some o) := h
  have hb1 : s1.mem[b]? = some (some ob) := hb
  obtain ⟨o1, hres, hh1, hk1', hrc1, -⟩ := resize_run (m := n + m) hk1 h1 hh hn
  replace hh1 := hh1.any (Q := P) (fun _ => trivial)
  rw [List.take_of_length_le (by omega)] at hh1
  have hb2 : (upd s1 a o1).mem[b]? = some (some ob) := (upd_other hab _).trans hb1
  have hxs : ∀ q, q < n → ∃ x, xs[q]? = some x := fun q hq => ⟨xs[q], List.getElem?_eq_getElem (by omega)⟩
  obtain ⟨c2, hmv, hc2⟩ := moveUp_run m (n + m - (p + m)) (n + m - 1) (upd s1 a o1) o1 hk1 (upd_get h1 _)
    (by omega) hh1.num (by omega)
    (fun q hq1 hq2 => by
      obtain ⟨x, hx⟩ := hxs (q - m) (by omega)
      exact ⟨x, hh1.elem _ x hx⟩)
    (fun q hq1 hq2 => hh1.place (by omega))
  rw [upd_upd] at hmv
  have hb3 : (upd s1 a { o1 with cells := c2 }).mem[b]? = some (some ob) := (upd_other hab _).trans hb1
  obtain ⟨c3, hcp, hc3⟩ := copyIn_run (kv := s.stk.length) hab p m 0 (upd s1 a { o1 with cells := c2 })
    { o1 with cells := c2 } ob ys hk1 hkv1 (upd_get h1 _) hb3 (by simp; omega) (by omega) hh1.num
    (by rw [hm]; exact hy) (by omega)
    (fun q hq1 hq2 => by
      simp only
      rw [hc2 q]
      split
      · obtain ⟨y, hy⟩ := hh1.place (i := q - m) (by omega)
        rw [hy]
        obtain ⟨z, hz⟩ := recell_raw (α := α) o1.kind y
        exact ⟨z, congrArg some hz⟩
      · exact hh1.place (by omega))
  rw [upd_upd] at hcp
  refine ⟨{ o1 with cells := c3 }, ?_, ?_, hk1', hrc1⟩
  · refine withVar_run (w := .arr b) (s1 := upd s1 a { o1 with cells := c3 }) ?_ rfl ?_
    · show insertNums (.slot k) (.slot s.stk.length) (.arr b) p n s1 = _
      unfold insertNums
      rw [bind_eq (sizeV_arr hb1), hy.size]
      have hres' : resize (.slot k) ((n : Int) + m) s1 = .ok () (upd s1 a o1) := by
        rw [← hres]
        congr 1
      rw [bind_eq hres']
      have hsz1 : ∀ {β : Type} (f : Nat → β), f o1.size = f (n + m) := fun f => by rw [hh1.size]
      have hrk : ∀ t : Obj α, readLoc (.slot k) (upd s1 a t) = .ok (.arr a) (upd s1 a t) := fun t => readSlot hk1
      have hrkv : ∀ t : Obj α, readLoc (.slot s.stk.length) (upd s1 a t) = .ok (.arr b) (upd s1 a t) :=
        fun t => readSlot hkv1
      rw [bind_eq (hrk _), bind_eq (sizeV_arr (upd_get h1 _)), bind_eq (hrkv _), bind_eq (sizeV_arr hb2),
        hy.size, hsz1 (fun z => (moveUp (.slot k) m (z - 1) (z - (p + m)) >>= _) _), bind_eq hmv, bind_eq (hrkv _), bind_eq (sizeV_arr hb3), hy.size]
      exact hcp
    · exact detach_dec (v := V.arr b) (s := upd s a _) rfl ((upd_other hab _).trans hb) hrb hy.ptrs
  · rw [show Env.conv o.kind o.kind = (Env.conv o1.kind o1.kind : α → α) by rw [hk1']]
    refine spliced (o' := { o1 with cells := c3 }) hh1 hx (by simpa using hm) hp rfl rfl fun q => ?_
    simp only at hc3 ⊢
    rw [hc3 q, hm]
    by_cases h1 : p ≤ q ∧ q < p + m
    · rw [if_pos h1, if_pos (by omega)]
      simp [hk1', Function.comp_def]
    · rw [if_neg h1, if_neg (by omega), hc2 q]
      by_cases h2 : p + m ≤ q ∧ q < n + m
      · rw [if_pos h2, if_pos (by omega)]
      · rw [if_neg h2]
        by_cases h3 : q ≤ n + m - 1 ∧ n + m - 1 < q + (n + m - (p + m))
        · omega
        · rw [if_neg h3]

theorem insert_arr [Env α] {k : Nat} {a b : Addr} {n m p : Nat} {s : State α} {o ob : Obj α}
    {xs ys : List α} (hid : ∀ x : α, Env.conv o.kind o.kind x = x) (hk : s.stk[k]? = some (.arr a))
    (h : s.mem[a]? = some (some o)) (hh : Has P o n xs)
    (hx : xs.length = n) (hab : a ≠ b) (hb : s.mem[b]? = some (some ob)) (hy : Has Q ob m ys) (hm : ys.length = m)
    (hp : p ≤ n) (hr : 1 ≤ o.rc) (hrb : 1 ≤ ob.rc) (hn : n + m + 1 ≤ 2 ^ 30) :
    ∃ o' : Obj α, insert (.slot k) (.arr b) p s = .ok () { mem := (upd s a o').mem.set b (dec ob), stk := s.stk } ∧
      Has P o' (n + m) (xs.take p ++ ys.map (Env.conv ob.kind o.kind) ++ xs.drop p) ∧ o'.kind = o.kind ∧
      o'.rc = o.rc := by
  have := insert_arr_conv hk h hh hx hab hb hy hm hp hr hrb hn
  rwa [map_conv hid] at this

/-- A number becomes an array of one (lube/var.cpp:930-935). -/
theorem wrap_num [Env α] {kv : Nat} {j : Kind} {x : α} {s : State α} (hid : Env.conv j j x = x) (hj : IsNum j)
    (hk : s.stk[kv]? = some (.num j x)) :
    ∃ ob : Obj α, wrap (.slot kv) 1 s =
        .ok () { mem := s.mem ++ [some ob], stk := s.stk.set kv (.arr s.mem.length) } ∧
      Has P ob 1 [x] ∧ ob.kind = j ∧ ob.rc = 1 := by
  obtain ⟨cells, h1, h2, h3, h4, h5⟩ := resizeObj_run (o := (⟨j, 0, 1, []⟩ : Obj α)) (m := 1) hj
    (by intro c hc; exact absurd hc List.not_mem_nil) (by omega)
  have hlt : kv < s.stk.length := (List.getElem?_eq_some_iff.1 hk).1
  let s1 : State α := { mem := s.mem ++ [some ⟨j, 1, 1, cells⟩], stk := s.stk }
  let s2 : State α := { mem := s.mem ++ [some ⟨j, 1, 1, cells⟩], stk := s.stk.set kv (.arr s.mem.length) }
  have hh : Has P (⟨j, 1, 1, cells⟩ : Obj α) 1 [] :=
    ⟨hj, rfl, by simp, by simp, h3, h2, fun _ => h5⟩
  obtain ⟨y, hy⟩ := hh.place (i := 0) (by omega)
  have hg : s2.mem[s.mem.length]? = some (some ⟨j, 1, 1, cells⟩) := by simp [s2]
  have hset := setAt_num (i := 0) j x hg hj hy (Nat.le_refl 1)
  have hh2 := hh.snoc (by simp) x
  refine ⟨⟨j, 1, 1, cells.set 0 (.raw (some x))⟩, ?_, hh2, rfl, rfl⟩
  unfold wrap
  rw [bind_eq (readSlot hk)]
  simp only
  have hnew : newHeap 1 (some j) s = .ok s.mem.length s1 := by
    unfold newHeap
    simp only [Option.getD_some, h1]
    rfl
  have hw : writeLoc (.slot kv) (.arr s.mem.length) s1 = .ok () s2 := by
    simp [writeLoc, s1, s2, hlt]
  rw [bind_eq hnew, bind_eq hw]
  refine Eq.trans hset ?_
  simp [upd, s2, hid]

/-- Indexing a temporary number (lube/var.cpp:711-721). -/
theorem index_num [Env α] {kv : Nat} {j : Kind} {x : α} {s : State α} (hid : Env.conv j j x = x) (hj : IsNum j)
    (hk : s.stk[kv]? = some (.num j x)) :
    ∃ ob : Obj α, index (.slot kv) 0 s =
        .ok (.ref s.mem.length 0) { mem := s.mem ++ [some { ob with rc := 2 }], stk := s.stk.set kv (.arr s.mem.length) } ∧
      Has P ob 1 [x] ∧ ob.kind = j ∧ ob.rc = 1 := by
  obtain ⟨ob, h1, h2, h3, h4⟩ := wrap_num hid hj hk
  have hlt : kv < s.stk.length := (List.getElem?_eq_some_iff.1 hk).1
  refine ⟨ob, ?_, h2, h3, h4⟩
  have hd : dereference (.slot kv) s = .ok (.slot kv) s := by
    unfold dereference
    rw [bind_eq (readSlot hk)]
    rfl
  have harr : array (.slot kv) s = wrap (.slot kv) 1 s := by
    unfold array
    rw [bind_eq hd, bind_eq (readSlot hk)]
  have hread : readLoc (.slot kv) ({ mem := s.mem ++ [some ob], stk := s.stk.set kv (.arr s.mem.length) } : State α) =
      .ok (.arr s.mem.length) { mem := s.mem ++ [some ob], stk := s.stk.set kv (.arr s.mem.length) } :=
    readSlot (by simp [hlt])
  have hg : ({ mem := s.mem ++ [some ob], stk := s.stk.set kv (.arr s.mem.length) } : State α).mem[s.mem.length]? =
    some (some ob) := by simp
  unfold index
  rw [bind_eq (readSlot hk)]
  simp only
  unfold indexPlain
  rw [if_neg (show ¬ ((0 : Int) < 0) by omega), bind_eq (readSlot hk), bind_eq (sizeV_num j x s)]
  rw [if_neg (show ¬ ((0 : Int) ≥ ((1 : Nat) : Int)) by omega)]
  refine (bind_eq (harr.trans h1)).trans ?_
  rw [bind_eq hread]
  refine (reference_arr (i := 0) hg).trans ?_
  simp [upd, h4]

theorem upd_append {mem : List (Option (Obj α))} {stk : List (V α)} {a : Addr} (h : a < mem.length) (o : Obj α)
    (x : Option (Obj α)) : upd { mem := mem ++ [x], stk := stk } a o =
      { mem := mem.set a (some o) ++ [x], stk := stk } := by
  simp [upd, List.set_append_left, h]

theorem insert_num_conv [Env α] {k : Nat} {a : Addr} {n p : Nat} {s : State α} {o : Obj α}
    {xs : List α} {j : Kind} {x : α} (hid : Env.conv j j x = x) (hj : IsNum j) (hk : s.stk[k]? = some (.arr a)) (h : s.mem[a]? = some (some o))
    (hh : Has P o n xs) (hx : xs.length = n) (hp : p ≤ n) (hr : 1 ≤ o.rc) (hn : n + 2 ≤ 2 ^ 30) :
    ∃ o' : Obj α, insert (.slot k) (.num j x) p s =
        .ok () { mem := (upd s a o').mem ++ [none], stk := s.stk } ∧
      Has P o' (n + 1) (xs.take p ++ [Env.conv j o.kind x] ++ (xs.drop p).map (Env.conv o.kind o.kind)) ∧ o'.kind = o.kind ∧ o'.rc = o.rc := by
  rw [insert_eq hk h hh hp]
  let s1 : State α := { mem := s.mem, stk := s.stk ++ [.num j x] }
  have hk1 : s1.stk[k]? = some (.arr a) := slot_append hk
  have hkv1 : s1.stk[s.stk.length]? = some (.num j x) := by simp [s1]
  have h1 : s1.mem[a]? = some (some o) := h
  have hal : a < s.mem.length := lt_of_alive h
  obtain ⟨o1, hres, hh1, hk1', hrc1, -⟩ := resize_run (m := n + 1) hk1 h1 hh hn
  replace hh1 := hh1.any (Q := P) (fun _ => trivial)
  rw [List.take_of_length_le (by omega)] at hh1
  have hxs : ∀ q, q < n → ∃ x, xs[q]? = some x := fun q hq => ⟨xs[q], List.getElem?_eq_getElem (by omega)⟩
  obtain ⟨c2, hmv, hc2⟩ := moveUp_run 1 (n + 1 - (p + 1)) (n + 1 - 1) (upd s1 a o1) o1 hk1 (upd_get h1 _)
    (by omega) hh1.num (by omega)
    (fun q hq1 hq2 => by
      obtain ⟨x, hx⟩ := hxs (q - 1) (by omega)
      exact ⟨x, hh1.elem _ x hx⟩)
    (fun q hq1 hq2 => hh1.place (by omega))
  rw [upd_upd] at hmv
  let s2 : State α := upd s1 a { o1 with cells := c2 }
  have hs2 : s2.mem.length = s.mem.length := by simp [s2, s1, upd]
  obtain ⟨ob, hix, hob, hobk, hobr⟩ := index_num (P := True) hid (kv := s.stk.length) (s := s2) hj hkv1
  rw [hs2] at hix
  let s3 : State α := { mem := s2.mem ++ [some { ob with rc := 2 }], stk := s.stk ++ [.arr s.mem.length] }
  have hs3 : ({ mem := s2.mem ++ [some { ob with rc := 2 }], stk := s2.stk.set s.stk.length (.arr s.mem.length) } :
      State α) = s3 := by
    simp [s3, s2, s1, upd]
  rw [hs3] at hix
  have hga : s3.mem[a]? = some (some { o1 with cells := c2 }) := by
    show (s2.mem ++ _)[a]? = _
    rw [List.getElem?_append_left (by omega)]
    exact upd_get h1 _
  have hgb : s3.mem[s.mem.length]? = some (some { ob with rc := 2 }) := by
    show (s2.mem ++ _)[s.mem.length]? = _
    rw [← hs2]
    simp
  have hpl : ∃ y, c2[p]? = some (.raw y) := by
    rw [hc2 p]
    split
    · obtain ⟨y, hy⟩ := hh1.place (i := p - 1) (by omega)
      rw [hy]
      obtain ⟨z, hz⟩ := recell_raw (α := α) o1.kind y
      exact ⟨z, congrArg some hz⟩
    · exact hh1.place (by omega)
  obtain ⟨y, hy⟩ := hpl
  have hset := setAt_other (i := p) (j := 0) (x := x) (by omega : a ≠ s.mem.length) hga hh1.num hy hgb
    (by rw [show ({ ob with rc := 2 } : Obj α).kind = j from hobk]; exact hj) (hob.elem 0 x rfl) (by simp; omega) (by simp)
  have hlp : p < c2.length := (List.getElem?_eq_some_iff.1 hy).1
  simp only [hobk, hk1'] at hset
  refine ⟨{ o1 with cells := c2.set p (.raw (some (Env.conv j o.kind x))) }, ?_, ?_, hk1', hrc1⟩
  · refine withVar_run (w := .arr s.mem.length)
      (s1 := upd (upd s3 a { o1 with cells := c2.set p (.raw (some (Env.conv j o.kind x))) }) s.mem.length { ob with rc := 1 })
      ?_ rfl ?_
    · show insertNums (.slot k) (.slot s.stk.length) (.num j x) p n s1 = _
      unfold insertNums
      rw [bind_eq (sizeV_num j x s1)]
      have hres' : resize (.slot k) ((n : Int) + (1 : Nat)) s1 = .ok () (upd s1 a o1) := by
        rw [← hres]
        congr 1
      rw [bind_eq hres']
      have hsz1 : ∀ {β : Type} (f : Nat → β), f o1.size = f (n + 1) := fun f => by rw [hh1.size]
      have hrk : ∀ t : Obj α, readLoc (.slot k) (upd s1 a t) = .ok (.arr a) (upd s1 a t) := fun t => readSlot hk1
      have hrkv : ∀ t : Obj α, readLoc (.slot s.stk.length) (upd s1 a t) = .ok (.num j x) (upd s1 a t) :=
        fun t => readSlot hkv1
      rw [bind_eq (hrk _), bind_eq (sizeV_arr (upd_get h1 _)), bind_eq (hrkv _), bind_eq (sizeV_num j x _),
        hsz1 (fun z => (moveUp (.slot k) 1 (z - 1) (z - (p + 1)) >>= _) _), bind_eq hmv, bind_eq (hrkv _),
        bind_eq (sizeV_num j x _)]
      unfold copyIn
      rw [bind_eq (hrkv _), bind_eq (sizeV_num j x _), if_pos (by omega)]
      refine (bind_eq hix).trans ?_
      have hrk3 : readLoc (.slot k) s3 = .ok (.arr a) s3 := readSlot (slot_append hk)
      rw [bind_eq hrk3]
      have e : (p : Int) + (0 : Nat) = (p : Nat) := by omega
      rw [e]
      refine (bind_eq hset).trans ?_
      unfold copyIn
      simp [pure_run, hk1', hobk]
    · have e : ({ mem := (upd (upd s3 a { o1 with cells := c2.set p (.raw (some (Env.conv j o.kind x))) })
          s.mem.length { ob with rc := 1 }).mem, stk := s.stk } : State α) =
          { mem := (upd s a { o1 with cells := c2.set p (.raw (some (Env.conv j o.kind x))) }).mem ++ [some { ob with rc := 1 }],
            stk := s.stk } := by
        simp only [upd, s3, s2, s1, State.mk.injEq, and_true]
        rw [List.set_append_left _ _ (by simpa using hal), List.set_set]
        rw [List.set_append_right _ _ (by simp)]
        simp
      refine (congrArg (detachV (.arr s.mem.length)) e).trans ?_
      have hl : s.mem.length = (upd s a { o1 with cells := c2.set p (.raw (some (Env.conv j o.kind x))) }).mem.length := by
        simp [upd]
      conv_lhs => rw [show V.arr s.mem.length = (V.arr (upd s a { o1 with cells := c2.set p (.raw (some (Env.conv j o.kind x))) }).mem.length : V α) by rw [← hl]]
      exact detach_last rfl (hob.rc 1).ptrs
  · rw [show Env.conv o.kind o.kind = (Env.conv o1.kind o1.kind : α → α) by rw [hk1']]
    refine spliced (o' := { o1 with cells := c2.set p (.raw (some (Env.conv j o.kind x))) }) hh1 hx rfl hp rfl rfl
      fun q => ?_
    simp only
    by_cases h1 : p = q
    · subst h1
      rw [List.getElem?_set_self hlp, if_pos (by omega)]
      simp
    · rw [List.getElem?_set_ne h1, if_neg (by omega), hc2 q]
      by_cases h2 : p + 1 ≤ q ∧ q < n + 1
      · rw [if_pos h2, if_pos (by omega)]
      · rw [if_neg h2, if_neg (by omega)]

theorem insert_num [Env α] {k : Nat} {a : Addr} {n p : Nat} {s : State α} {o : Obj α}
    {xs : List α} {j : Kind} {x : α} (hid : ∀ x : α, Env.conv o.kind o.kind x = x) (hidj : Env.conv j j x = x)
    (hj : IsNum j) (hk : s.stk[k]? = some (.arr a)) (h : s.mem[a]? = some (some o))
    (hh : Has P o n xs) (hx : xs.length = n) (hp : p ≤ n) (hr : 1 ≤ o.rc) (hn : n + 2 ≤ 2 ^ 30) :
    ∃ o' : Obj α, insert (.slot k) (.num j x) p s =
        .ok () { mem := (upd s a o').mem ++ [none], stk := s.stk } ∧
      Has P o' (n + 1) (xs.take p ++ [Env.conv j o.kind x] ++ xs.drop p) ∧ o'.kind = o.kind ∧ o'.rc = o.rc := by
  have := insert_num_conv hidj hj hk h hh hx hp hr hn
  rwa [map_conv hid] at this

theorem copy_ref_num [Env α] {a : Addr} {i : Nat} {s : State α} {o : Obj α} (h : s.mem[a]? = some (some o))
    (hk : IsNum o.kind) : copy (.ref a i) s = .ok (.ref a i) (upd s a { o with rc := o.rc + 1 }) := by
  unfold copy heapOf
  have hd : ((derefV (.ref a i) >>= fun w => match w with | .arr b => pure (some b) | _ => pure none) : M α (Option Addr)) s =
      .ok none s := by
    rw [bind_eq (derefV_ref_num h hk)]
    rfl
  refine (bind_eq hd).trans ?_
  exact copyV_run (v := V.ref a i) rfl h

theorem remove_run_conv [Env α] {k : Nat} {a : Addr} {n i : Nat} {s : State α} {o : Obj α}
    {xs : List α} (hk : s.stk[k]? = some (.arr a)) (h : s.mem[a]? = some (some o))
    (hh : Has P o n xs) (hx : xs.length = n) (hi : i < n) (hr : 1 ≤ o.rc) (hn : n ≤ 2 ^ 30) :
    ∃ o' : Obj α, remove (.slot k) i s = .ok (.ref a i) (upd s a { o' with rc := o.rc + 1 }) ∧
      Has True o' (n - 1) (xs.take i ++ (xs.drop (i + 1)).map (Env.conv o.kind o.kind)) ∧ o'.kind = o.kind ∧
      (∀ x, xs[i + 1]? = some x → o'.cells[i]? = some (.raw (some (Env.conv o.kind o.kind x)))) ∧
      (i + 1 = n → o.kind = .char → o'.cells[i]? = some (.raw (some Env.nul))) ∧
      (∀ x, i + 1 = n → o.kind ≠ .char → xs[i]? = some x → o'.cells[i]? = some (.raw (some x))) := by
  let s1 : State α := upd s a { o with rc := o.rc + 1 }
  have h1 : s1.mem[a]? = some (some { o with rc := o.rc + 1 }) := upd_get h _
  -- the copy of the reference
  have hcopy : withVar (.ref a i) (fun lx => readLoc lx >>= fun v => copy v) s1 = .ok (.ref a i) s1 := by
    refine withVar_run (w := .ref a i) (s1 := { upd s a { o with rc := o.rc + 2 } with stk := s.stk ++ [.ref a i] })
      ?_ rfl ?_
    · have hl : readLoc (.slot s1.stk.length) ({ mem := s1.mem, stk := s1.stk ++ [.ref a i] } : State α) =
        .ok (.ref a i) _ := readTemp s1.mem s1.stk _
      refine (bind_eq hl).trans ?_
      refine (copy_ref_num (s := { mem := s1.mem, stk := s1.stk ++ [.ref a i] }) h1 hh.num).trans ?_
      simp [upd, s1, List.set_set]
    · exact detach_upd (v := V.ref a i) (s := s) (o := { o with rc := o.rc + 2 }) rfl h (by simp)
  let s2 : State α := { mem := s1.mem, stk := s.stk ++ [.ref a i] }
  have hk2 : s2.stk[k]? = some (.arr a) := slot_append hk
  have h2 : s2.mem[a]? = some (some { o with rc := o.rc + 1 }) := h1
  have hxs : ∀ q, q < n → ∃ x, xs[q]? = some x := fun q hq => ⟨xs[q], List.getElem?_eq_getElem (by omega)⟩
  obtain ⟨c2, hmv, hc2⟩ := moveDown_run (n - (i + 1)) (i + 1) s2 { o with rc := o.rc + 1 } hk2 h2 (by simp)
    hh.num (by omega)
    (fun q hq1 hq2 => by
      obtain ⟨x, hx⟩ := hxs q (by omega)
      exact ⟨x, hh.elem _ x hx⟩)
    (hh.place (by omega))
  simp only at hc2 hmv
  have hh2 : Has P ({ o with rc := o.rc + 1, cells := c2 } : Obj α) n (xs.take i ++ (xs.drop (i + 1)).map (Env.conv o.kind o.kind)) := by
    refine ⟨hh.num, hh.size, by simp; omega, fun q x hq => ?_, ?_, fun c hc => ?_, fun hP hch => ?_⟩
    · simp only
      rw [hc2 q]
      by_cases hqi : q < i
      · rw [List.getElem?_append_left (by simp; omega), List.getElem?_take, if_pos hqi] at hq
        rw [if_neg (by omega)]
        exact hh.elem q x hq
      · rw [List.getElem?_append_right (by simp; omega), List.getElem?_map, List.getElem?_drop,
          show i + 1 + (q - (xs.take i).length) = q + 1 by simp; omega] at hq
        obtain ⟨y, hy, rfl⟩ := Option.map_eq_some_iff.1 hq
        have := (List.getElem?_eq_some_iff.1 hy).1
        rw [if_pos (by omega), hh.elem (q + 1) y hy]
        rfl
    · have hl := hh.cap
      obtain ⟨y, hy⟩ := hh.place (i := n - 1) (by omega)
      have := hc2 (n - 1)
      rw [if_neg (by omega), hy] at this
      have := (List.getElem?_eq_some_iff.1 this).1
      simp only
      omega
    · obtain ⟨q, hq⟩ := List.getElem?_of_mem hc
      rw [hc2 q] at hq
      split at hq
      · obtain ⟨c', hc', rfl⟩ := Option.map_eq_some_iff.1 hq
        obtain ⟨y, rfl⟩ := hh.get_raw _ c' hc'
        exact recell_raw _ y
      · exact hh.get_raw _ c hq
    · simp only
      rw [hc2 n, if_neg (by omega)]
      exact hh.nul hP hch
  have h3 : (upd s2 a { o with rc := o.rc + 1, cells := c2 }).mem[a]? =
    some (some { o with rc := o.rc + 1, cells := c2 }) := upd_get h2 _
  obtain ⟨o', hres, hh', hk', hrc', hkeep⟩ := resize_run (m := n - 1)
    (s := upd s2 a { o with rc := o.rc + 1, cells := c2 }) hk2 h3 hh2 (by omega)
  rw [upd_upd] at hres
  have hlen : (xs.take i ++ (xs.drop (i + 1)).map (Env.conv o.kind o.kind)).length = n - 1 := by simp; omega
  rw [List.take_of_length_le (by omega)] at hh'
  refine ⟨o', ?_, hh', hk', fun x hx1 => ?_, fun hin hch => ?_, fun x hin hch hxi => ?_⟩
  · unfold remove
    rw [bind_eq (readSlot hk), bind_eq (sizeV_arr h), hh.size, if_neg (by omega), bind_eq (at'_arr h)]
    refine (bind_eq hcopy).trans ?_
    refine withVar_run (w := .ref a i) (s1 := { upd s a { o' with rc := o.rc + 2 } with stk := s.stk ++ [.ref a i] })
      ?_ rfl ?_
    · refine (bind_eq hmv).trans ?_
      have hres2 : resize (.slot k) ((n : Int) - 1) (upd s2 a { o with rc := o.rc + 1, cells := c2 }) =
          .ok () (upd s2 a o') := by
        rw [← hres]
        congr 1
        omega
      refine (bind_eq hres2).trans ?_
      have hl : readLoc (.slot s1.stk.length) (upd s2 a o') = .ok (.ref a i) (upd s2 a o') :=
        readSlot (by simp [upd, s2, s1])
      refine (bind_eq hl).trans ?_
      refine (copyV_run (v := V.ref a i) rfl (upd_get h2 o')).trans ?_
      simp only at hrc'
      simp [upd, s2, s1, List.set_set, hrc']
    · exact detach_upd (v := V.ref a i) (s := s) (o := { o' with rc := o.rc + 2 }) rfl h (by simp)
  · have hl := (List.getElem?_eq_some_iff.1 hx1).1
    refine hh'.elem i _ ?_
    rw [List.getElem?_append_right (by simp), List.getElem?_map, List.getElem?_drop,
      show i + 1 + (i - (xs.take i).length) = i + 1 by simp; omega, hx1]
    rfl
  · have := hh'.nul trivial (by rw [hk']; exact hch)
    rwa [show n - 1 = i by omega] at this
  · refine hkeep i _ (.inr (.inl hch)) ?_
    simp only
    rw [hc2 i, if_neg (by omega)]
    exact hh.elem i x hxi

theorem remove_run [Env α] {k : Nat} {a : Addr} {n i : Nat} {s : State α} {o : Obj α}
    {xs : List α} (hid : ∀ x : α, Env.conv o.kind o.kind x = x) (hk : s.stk[k]? = some (.arr a))
    (h : s.mem[a]? = some (some o))
    (hh : Has P o n xs) (hx : xs.length = n) (hi : i < n) (hr : 1 ≤ o.rc) (hn : n ≤ 2 ^ 30) :
    ∃ o' : Obj α, remove (.slot k) i s = .ok (.ref a i) (upd s a { o' with rc := o.rc + 1 }) ∧
      Has True o' (n - 1) (xs.eraseIdx i) ∧ o'.kind = o.kind ∧
      (∀ x, xs[i + 1]? = some x → o'.cells[i]? = some (.raw (some x))) ∧
      (i + 1 = n → o.kind = .char → o'.cells[i]? = some (.raw (some Env.nul))) ∧
      (∀ x, i + 1 = n → o.kind ≠ .char → xs[i]? = some x → o'.cells[i]? = some (.raw (some x))) := by
  have := remove_run_conv hk h hh hx hi hr hn
  simp only [map_conv hid, hid] at this
  rwa [List.eraseIdx_eq_take_drop_succ]

end Libube.Mem

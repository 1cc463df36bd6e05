import Verif.Lemmas.MemNice
import Verif.Lemmas.MemArray
import Verif.Lemmas.MemShare

/-! # What calls do to arrays of vars and to maps -/

namespace Libube.Mem

variable {α β : Type}

/-- What is still there is as it was, but for counts and but for the arrays named. -/
def Oth (P : Addr → Prop) (mem mem' : List (Option (Obj α))) : Prop :=
  mem.length ≤ mem'.length ∧ ∀ (b : Addr) (o' : Obj α), ¬ P b → b < mem.length → mem'[b]? = some (some o') →
    ∃ o : Obj α, mem[b]? = some (some o) ∧ o'.kind = o.kind ∧ o'.size = o.size ∧ o'.cells = o.cells

theorem Oth.refl (P : Addr → Prop) (mem : List (Option (Obj α))) : Oth P mem mem :=
  ⟨le_refl _, fun _ o' _ _ h => ⟨o', h, rfl, rfl, rfl⟩⟩

theorem Oth.trans {P : Addr → Prop} {m1 m2 m3 : List (Option (Obj α))} (h1 : Oth P m1 m2) (h2 : Oth P m2 m3) : Oth P m1 m3 := by
  refine ⟨h1.1.trans h2.1, fun b o hb hl ho => ?_⟩
  obtain ⟨o2, e2, k2, z2, c2⟩ := h2.2 b o hb (Nat.lt_of_lt_of_le hl h1.1) ho
  obtain ⟨o1, e1, k1, z1, c1⟩ := h1.2 b o2 hb hl e2
  exact ⟨o1, e1, k2.trans k1, z2.trans z1, c2.trans c1⟩

theorem Oth.mono {P Q : Addr → Prop} {m1 m2 : List (Option (Obj α))} (h : Oth P m1 m2) (hpq : ∀ b, P b → Q b) : Oth Q m1 m2 :=
  ⟨h.1, fun b o hb hl ho => h.2 b o (fun hp => hb (hpq b hp)) hl ho⟩

/-- Nothing but counts. -/
abbrev Kept (mem mem' : List (Option (Obj α))) : Prop := Oth (fun _ => False) mem mem'

theorem Kept.oth {P : Addr → Prop} {m1 m2 : List (Option (Obj α))} (h : Kept m1 m2) : Oth P m1 m2 := h.mono fun _ h => absurd h id

theorem Shrunk.kept {m1 m2 : List (Option (Obj α))} (h : Shrunk m1 m2) : Kept m1 m2 := by
  refine ⟨Nat.le_of_eq h.1.symm, fun b o' _ _ ho => ?_⟩
  obtain ⟨o, h1, h2, -⟩ := h.2 b o' ho
  exact ⟨o, h1, by rw [h2], by rw [h2], by rw [h2]⟩

/-- Array `a`, whatever its count. -/
def Is (mem : List (Option (Obj α))) (a : Addr) (k : Kind) (n : Nat) (cells : List (Cell α)) : Prop :=
  ∃ rc, mem[a]? = some (some ⟨k, n, rc, cells⟩)

/-- The array is allocated. -/
def Live (mem : List (Option (Obj α))) (a : Addr) : Prop := ∃ o : Obj α, mem[a]? = some (some o)

theorem Is.live {mem : List (Option (Obj α))} {a : Addr} {k : Kind} {n : Nat} {cells : List (Cell α)} (h : Is mem a k n cells) : Live mem a :=
  let ⟨_, h⟩ := h
  ⟨_, h⟩

theorem Is.kept {P : Addr → Prop} {m1 m2 : List (Option (Obj α))} {a : Addr} {k : Kind} {n : Nat} {cells : List (Cell α)}
    (h : Is m1 a k n cells) (hk : Oth P m1 m2) (hp : ¬ P a) (hl : Live m2 a) : Is m2 a k n cells := by
  obtain ⟨rc, h⟩ := h
  obtain ⟨o2, h2⟩ := hl
  obtain ⟨o1, h1, e1, e2, e3⟩ := hk.2 a o2 hp (lt_of_alive h) h2
  rw [h] at h1
  cases h1
  refine ⟨o2.rc, ?_⟩
  simp only at e1 e2 e3
  rw [h2, ← e1, ← e2, ← e3]

theorem Inv.stk_live {s : State α} {own : List Addr} (h : Inv s own) {a : Addr} (ha : a ∈ stkPtrs s.stk) : Live s.mem a :=
  let ⟨o, ho, _⟩ := InvM.alive h (.inr (List.mem_append_left _ ha))
  ⟨o, ho⟩

theorem Inv.own_live {s : State α} {own : List Addr} (h : Inv s own) {a : Addr} (ha : a ∈ own) : Live s.mem a :=
  let ⟨o, ho, _⟩ := InvM.alive h (.inr (List.mem_append_right _ ha))
  ⟨o, ho⟩

theorem Inv.cell_live {s : State α} {own : List Addr} (h : Inv s own) {a b : Addr} {k : Kind} {n : Nat} {cells : List (Cell α)}
    (hs : Is s.mem a k n cells) {c : Cell α} (hc : c ∈ cells) (hb : b ∈ c.ptrs) : Live s.mem b := by
  obtain ⟨rc, hs⟩ := hs
  obtain ⟨o, ho, -⟩ := InvM.alive h (a := b) (.inl (List.mem_flatMap.2 ⟨_, List.mem_of_getElem? hs, List.mem_flatMap.2 ⟨c, hc, hb⟩⟩))
  exact ⟨o, ho⟩

theorem stkPtrs_append (stk : List (V α)) (v : V α) : stkPtrs (stk ++ [v]) = stkPtrs stk ++ v.ptr.toList := by
  simp [stkPtrs]

theorem mem_stkPtrs {stk : List (V α)} {n : Nat} {v : V α} (h : stk[n]? = some v) {a : Addr} (ha : a ∈ v.ptr.toList) : a ∈ stkPtrs stk :=
  List.mem_flatMap.2 ⟨v, List.mem_of_getElem? h, ha⟩

theorem Inv.push {s : State α} {own : List Addr} {v : V α} (h : Inv s (v.ptr.toList ++ own)) : Inv { s with stk := s.stk ++ [v] } own :=
  InvM.congr h fun a => by simp only [stkPtrs_append, List.count_append]; omega

theorem Inv.pop {mem : List (Option (Obj α))} {stk : List (V α)} {own : List Addr} {v : V α} (h : Inv ⟨mem, stk ++ [v]⟩ own) :
    Inv ⟨mem, stk⟩ (v.ptr.toList ++ own) :=
  InvM.congr h fun a => by simp only [stkPtrs_append, List.count_append]; omega

/-- Counting up. -/
theorem attach_tot {s : State α} {own : List Addr} {v : V α} (hi : Inv s own) (hl : ∀ b ∈ v.ptr.toList, Live s.mem b) :
    ∃ mem', attachV v s = .ok () { s with mem := mem' } ∧ Inv { s with mem := mem' } (v.ptr.toList ++ own) ∧ Kept s.mem mem' ∧
      ∀ b, Live s.mem b → Live mem' b := by
  cases hp : v.ptr with
  | none => exact ⟨s.mem, attach_none hp s, by simpa using hi, Oth.refl _ _, fun _ h => h⟩
  | some a =>
    obtain ⟨o, ho⟩ := hl a (by simp [hp])
    have h1 := attach_run hp ho
    obtain ⟨h2, -, -⟩ := attachV_ok h1 hi
    rw [hp] at h2
    refine ⟨_, h1, h2, ⟨by simp, fun b p _ _ hb => ?_⟩, fun b hb => ?_⟩
    · by_cases hab : a = b
      · subst hab
        rw [List.getElem?_set_self (lt_of_alive ho)] at hb
        cases hb
        exact ⟨o, ho, rfl, rfl, rfl⟩
      · rw [List.getElem?_set_ne hab] at hb
        exact ⟨p, hb, rfl, rfl, rfl⟩
    · by_cases hab : a = b
      · subst hab
        exact ⟨_, List.getElem?_set_self (lt_of_alive ho)⟩
      · obtain ⟨p, hp⟩ := hb
        exact ⟨p, by rw [List.getElem?_set_ne hab]; exact hp⟩

/-- Counting down. -/
theorem detach_tot {s : State α} {own : List Addr} {v : V α} (hi : Inv s (v.ptr.toList ++ own)) :
    ∃ mem', detachV v s = .ok () { s with mem := mem' } ∧ Inv { s with mem := mem' } own ∧ Kept s.mem mem' :=
  let ⟨m, h1, h2, h3⟩ := detachV_ok hi
  ⟨m, h1, h2, h3.kept⟩

/-- The life of a temporary. -/
theorem withVar_tot {s : State α} {own : List Addr} {v w : V α} {f : Loc → M α β} {b : β} {m1 : List (Option (Obj α))}
    (hf : f (.slot s.stk.length) { s with stk := s.stk ++ [v] } = .ok b ⟨m1, s.stk ++ [w]⟩) (hi : Inv ⟨m1, s.stk ++ [w]⟩ own) :
    ∃ m2, withVar v f s = .ok b ⟨m2, s.stk⟩ ∧ Inv ⟨m2, s.stk⟩ own ∧ Kept m1 m2 := by
  obtain ⟨m2, h1, h2, h3⟩ := detach_tot (s := ⟨m1, s.stk⟩) hi.pop
  exact ⟨m2, withVar_run hf rfl h1, h2, h3⟩

/-! ## Places that hold vars -/

/-- The var at a place: the key of a pair, or the element (the value of a pair). -/
def Cell.get (q : Bool) : Cell α → Option (V α)
  | .raw _ => none
  | .var v => if q then none else some v
  | .pair k v => some (if q then k else v)

def Cell.put (q : Bool) (x : V α) : Cell α → Cell α
  | .raw y => .raw y
  | .var v => if q then .var v else .var x
  | .pair k v => if q then .pair x v else .pair k x

def place (q : Bool) (a : Addr) (i : Nat) : Loc := if q then .key a i else .cell a i

theorem Cell.Clean.get {c : Cell α} (h : c.Clean) {q : Bool} {t : V α} (ht : c.get q = some t) : ¬ t.IsRef := by
  cases c <;> cases q <;> simp [Cell.get] at ht <;> subst ht <;> first | exact h | exact h.1 | exact h.2

theorem Cell.Clean.put {c : Cell α} (h : c.Clean) {q : Bool} {t : V α} (ht : ¬ t.IsRef) : (c.put q t).Clean := by
  cases c <;> cases q <;> first | exact h | exact ht | exact ⟨h.1, ht⟩ | exact ⟨ht, h.2⟩

theorem Cell.get_put {c : Cell α} {q : Bool} {t : V α} (ht : c.get q = some t) (x : V α) : (c.put q x).get q = some x := by
  cases c <;> cases q <;> simp_all [Cell.get, Cell.put]

theorem Cell.put_put (c : Cell α) (q : Bool) (x y : V α) : (c.put q x).put q y = c.put q y := by
  cases c <;> cases q <;> rfl

theorem Cell.put_count {c : Cell α} {q : Bool} {t : V α} (ht : c.get q = some t) (x : V α) (b : Addr) :
    (c.put q x).ptrs.count b + t.ptr.toList.count b = c.ptrs.count b + x.ptr.toList.count b := by
  cases c <;> cases q <;> simp [Cell.get] at ht <;> subst ht <;> simp [Cell.put, Cell.ptrs] <;> omega

theorem Cell.put_ok {c : Cell α} {k : Kind} (h : CellOk k c) (q : Bool) (x : V α) : CellOk k (c.put q x) := by
  cases c <;> cases q <;> exact h

theorem Cell.get_ptrs {c : Cell α} {q : Bool} {t : V α} (ht : c.get q = some t) {b : Addr} (hb : b ∈ t.ptr.toList) : b ∈ c.ptrs := by
  cases c <;> cases q <;> simp [Cell.get] at ht <;> subst ht <;> simp [Cell.ptrs] <;> simp at hb <;> simp [hb]

theorem read_place {s : State α} {a : Addr} {k : Kind} {n i : Nat} {cells : List (Cell α)} (h : Is s.mem a k n cells) {c : Cell α}
    (hc : cells[i]? = some c) {q : Bool} {t : V α} (ht : c.get q = some t) : readLoc (place q a i) s = .ok t s := by
  obtain ⟨rc, h⟩ := h
  cases c <;> cases q <;> simp [Cell.get] at ht <;> subst ht <;>
    simp [place, readLoc, bind_eq (obj_eq h), hc, pure_run]

theorem write_place {s : State α} {own own' : List Addr} {a : Addr} {k : Kind} {n i : Nat} {cells : List (Cell α)} (hi : Inv s own)
    (h : Is s.mem a k n cells) {c : Cell α} (hc : cells[i]? = some c) {q : Bool} {t : V α} (ht : c.get q = some t) (x : V α)
    (hown : ∀ b, own.count b + t.ptr.toList.count b = own'.count b + x.ptr.toList.count b) :
    ∃ mem', writeLoc (place q a i) x s = .ok () { s with mem := mem' } ∧ Inv { s with mem := mem' } own' ∧
      Is mem' a k n (cells.set i (c.put q x)) ∧ Oth (· = a) s.mem mem' ∧ ∀ b, Live s.mem b → Live mem' b := by
  obtain ⟨rc, h⟩ := h
  have hlt := lt_of_alive h
  refine ⟨s.mem.set a (some ⟨k, n, rc, cells.set i (c.put q x)⟩), ?_, ?_, ⟨rc, List.getElem?_set_self hlt⟩, ⟨by simp, fun b p hb _ hp => ?_⟩, fun b hb => ?_⟩
  · cases c <;> cases q <;> simp [Cell.get] at ht <;>
      simp [place, writeLoc, bind_eq (obj_eq h), hc, setObj, Cell.put]
  · refine InvM.update hi h (show 0 < rc from InvM.live hi a _ h) (CellOk.set (InvM.typed hi a _ h) hc (fun k' hk => Cell.put_ok hk q x) _ _) fun b => ?_
    have h1 := cells_set hc (c.put q x) b
    have h2 := Cell.put_count ht x b
    have h3 := hown b
    simp only [Obj.ptrs, List.count_append]
    omega
  · rw [List.getElem?_set_ne (fun e => hb e.symm)] at hp
    exact ⟨p, hp, rfl, rfl, rfl⟩
  · by_cases hab : a = b
    · subst hab
      exact ⟨_, List.getElem?_set_self hlt⟩
    · obtain ⟨p, hp⟩ := hb
      exact ⟨p, by rw [List.getElem?_set_ne hab]; exact hp⟩

/-- Sharing. -/
theorem share_tot {s : State α} {own : List Addr} {a : Addr} {k : Kind} {n i : Nat} {cells : List (Cell α)} (hi : Inv s own)
    (ha : a ∈ stkPtrs s.stk) (h : Is s.mem a k n cells) {c : Cell α} (hc : cells[i]? = some c) {q : Bool} {t v : V α}
    (ht : c.get q = some t) (hr : ¬ t.IsRef) (hl : ∀ b ∈ v.ptr.toList, Live s.mem b) :
    ∃ mem', share (place q a i) v s = .ok () { s with mem := mem' } ∧ Inv { s with mem := mem' } own ∧
      Is mem' a k n (cells.set i (c.put q v)) ∧ Oth (· = a) s.mem mem' := by
  obtain ⟨m1, e1, i1, k1, l1⟩ := attach_tot hi hl
  have h1 : Is m1 a k n cells := h.kept k1 id (l1 a h.live)
  obtain ⟨m2, e2, i2, h2, k2, l2⟩ := write_place (own' := t.ptr.toList ++ own) i1 h1 hc ht v (fun b => by simp only [List.count_append]; omega)
  obtain ⟨m3, e3, i3, k3⟩ := detach_tot i2
  refine ⟨m3, ?_, i3, h2.kept k3 id (i3.stk_live ha), (k1.oth.trans k2).trans k3.oth⟩
  unfold share
  rw [bind_eq (read_place h hc ht), bind_eq e1, bind_eq e2]
  cases t with
  | arr b => exact e3
  | ref b j => exact absurd trivial hr
  | _ =>
    rw [detach_none rfl] at e3
    simpa [pure_run] using e3

/-- What a var denotes: itself, or the element a reference refers to (that of an array of `cdouble` is not covered). -/
inductive Deno (mem : List (Option (Obj α))) : V α → V α → Prop
  | self {v : V α} : ¬ v.IsRef → Deno mem v v
  | var {b j : Nat} {k : Kind} {n : Nat} {cells : List (Cell α)} {c : Cell α} {w : V α} : Is mem b k n cells → (k = .var ∨ k = .pair) →
      cells[j]? = some c → c.get false = some w → ¬ w.IsRef → Deno mem (.ref b j) w
  | num {b j : Nat} {k : Kind} {n : Nat} {cells : List (Cell α)} {x : α} : Is mem b k n cells → IsNum k → k ≠ .cdouble →
      cells[j]? = some (.raw (some x)) → Deno mem (.ref b j) (.num k x)

theorem derefLoc_var {s : State α} {b j n : Nat} {k : Kind} {cells : List (Cell α)} (h : Is s.mem b k n cells) (hk : k = .var ∨ k = .pair) :
    derefLoc b j s = .ok (some (.cell b j)) s := by
  obtain ⟨rc, h⟩ := h
  unfold derefLoc
  rw [bind_eq (obj_eq h)]
  rcases hk with rfl | rfl <;> rfl

/-- `operator=` on a place of an array. -/
theorem assignPlain_tot [Env α] {s : State α} {own : List Addr} {a : Addr} {k : Kind} {n i : Nat} {cells : List (Cell α)} {v w : V α}
    (hi : Inv s (v.ptr.toList ++ own)) (ha : a ∈ stkPtrs s.stk) (h : Is s.mem a k n cells) {c : Cell α} (hc : cells[i]? = some c)
    {q : Bool} {t : V α} (ht : c.get q = some t) (hr : ¬ t.IsRef) (hd : Deno s.mem v w) (hne : ∀ b j, v = .ref b j → place q a i ≠ .cell b j) :
    ∃ mem', assignPlain (place q a i) v s = .ok () { s with mem := mem' } ∧ Inv { s with mem := mem' } own ∧
      Is mem' a k n (cells.set i (c.put q w)) ∧ Oth (· = a) s.mem mem' := by
  have hlt := (List.getElem?_eq_some_iff.1 hc).1
  -- after sharing
  have i0 := hi.push
  have ha0 : a ∈ stkPtrs (s.stk ++ [v]) := by rw [stkPtrs_append]; exact List.mem_append_left _ ha
  have hv0 : ∀ b ∈ v.ptr.toList, b ∈ stkPtrs (s.stk ++ [v]) := fun b hb => by rw [stkPtrs_append]; exact List.mem_append_right _ hb
  obtain ⟨m1, e1, i1, h1, k1⟩ := share_tot (s := { s with stk := s.stk ++ [v] }) i0 ha0 h hc ht hr (v := v) (fun b hb => i0.stk_live (hv0 b hb))
  have hc1 : (cells.set i (c.put q v))[i]? = some (c.put q v) := List.getElem?_set_self hlt
  have hr1 := read_place (s := ⟨m1, s.stk ++ [v]⟩) h1 hc1 (Cell.get_put ht v)
  -- all that is left is dereferencing
  have key : ∀ m2, dereference (place q a i) ⟨m1, s.stk ++ [v]⟩ = .ok (place q a i) ⟨m2, s.stk ++ [v]⟩ ∨
      (∃ r, dereference (place q a i) ⟨m1, s.stk ++ [v]⟩ = .ok r ⟨m2, s.stk ++ [v]⟩) → Inv ⟨m2, s.stk ++ [v]⟩ own →
      Is m2 a k n (cells.set i (c.put q w)) → Oth (· = a) m1 m2 →
      ∃ mem', assignPlain (place q a i) v s = .ok () { s with mem := mem' } ∧ Inv { s with mem := mem' } own ∧
        Is mem' a k n (cells.set i (c.put q w)) ∧ Oth (· = a) s.mem mem' := by
    intro m2 he i2 h2 k2
    have he : ∃ r, dereference (place q a i) ⟨m1, s.stk ++ [v]⟩ = .ok r ⟨m2, s.stk ++ [v]⟩ := he.elim (fun h => ⟨_, h⟩) id
    obtain ⟨r, he⟩ := he
    obtain ⟨m3, e3, i3, k3⟩ := withVar_tot (s := s) (v := v) (w := v) (m1 := m2) (b := ())
      (f := fun _ => readLoc (place q a i) >>= fun t => match t with
        | .ref _ _ => undef .badPointer
        | _ => share (place q a i) v >>= fun _ => dereference (place q a i) >>= fun _ => pure ()) (by
        refine (bind_eq (read_place (s := { s with stk := s.stk ++ [v] }) h hc ht)).trans ?_
        have : (share (place q a i) v >>= fun _ => dereference (place q a i) >>= fun _ => (pure () : M α Unit)) { s with stk := s.stk ++ [v] } = .ok () ⟨m2, s.stk ++ [v]⟩ := by
          rw [bind_eq e1, bind_eq he]
          rfl
        cases t with
        | ref b j => exact absurd trivial hr
        | _ => exact this) i2
    exact ⟨m3, e3, i3, h2.kept k3 id (i3.stk_live ha), (k1.trans k2).trans k3.oth⟩
  cases hd with
  | self hv =>
    refine key m1 (.inl ?_) i1 h1 (Oth.refl _ _)
    unfold dereference
    rw [bind_eq hr1]
    cases v with
    | ref b j => exact absurd trivial hv
    | _ => rfl
  | @var b j k' n' cells' c' _ hb hk' hc' hw hwr =>
    have hb0 : b ∈ stkPtrs (s.stk ++ [.ref b j]) := hv0 b (by simp [V.ptr])
    -- the element referred to
    have hread : ∀ m2 x, Is m2 a k n (cells.set i (c.put q x)) → Oth (· = a) s.mem m2 → Live m2 b →
        ∃ n2 cells2 c2, Is m2 b k' n2 cells2 ∧ cells2[j]? = some c2 ∧ c2.get false = some w := by
      intro m2 x h2 k2 l2
      by_cases hab : b = a
      · subst hab
        obtain ⟨r1, g1⟩ := h
        obtain ⟨r2, g2⟩ := hb
        rw [g1] at g2
        cases g2
        by_cases hij : i = j
        · subst hij
          rw [hc] at hc'
          cases hc'
          refine ⟨_, _, _, h2, List.getElem?_set_self hlt, ?_⟩
          cases q with
          | false => exact absurd rfl (hne b i rfl)
          | true =>
            cases c with
            | pair k v => exact hw
            | _ => cases ht
        · exact ⟨_, _, c', h2, by rw [List.getElem?_set_ne hij]; exact hc', hw⟩
      · exact ⟨_, _, c', hb.kept k2 (fun h => hab h) l2, hc', hw⟩
    -- the place holds the reference; it becomes the array
    obtain ⟨m2, e2, i2, h2, k2, l2⟩ := write_place (own' := own) i1 h1 hc1 (Cell.get_put ht _) (.arr b) (fun _ => rfl)
    rw [List.set_set, Cell.put_put] at h2
    obtain ⟨n2, cells2, c2, hb2, hc2, hw2⟩ := hread m2 _ h2 (k1.trans k2) (i2.stk_live hb0)
    -- the element is shared
    have hwl : ∀ d ∈ w.ptr.toList, Live m2 d := fun d hd =>
      i2.cell_live hb2 (List.mem_of_getElem? hc2) (Cell.get_ptrs hw2 hd)
    obtain ⟨m3, e3, i3, k3, l3⟩ := attach_tot i2 hwl
    have h3 := h2.kept k3 id (l3 a h2.live)
    obtain ⟨m4, e4, i4, h4, k4⟩ := share_tot (v := w) i3 ha0 h3 (List.getElem?_set_self hlt) (Cell.get_put ht _) (t := .arr b) id
      (fun d hd => i3.own_live (List.mem_append_left _ hd))
    rw [List.set_set, Cell.put_put] at h4
    obtain ⟨m5, e5, i5, k5⟩ := detach_tot i4
    refine key m5 (.inr ⟨.cell b j, ?_⟩) i5 (h4.kept k5 id (i5.stk_live ha0)) (((k2.trans k3.oth).trans k4).trans k5.oth)
    obtain ⟨n1, cells1, c1, hb1, -, -⟩ := hread m1 _ h1 k1 (i1.stk_live hb0)
    unfold dereference
    rw [bind_eq hr1]
    simp only
    rw [bind_eq (derefLoc_var hb1 hk')]
    simp only
    rw [if_neg (fun e => hne b j rfl e.symm), bind_eq e2]
    refine (bind_eq (read_place (q := false) hb2 hc2 hw2)).trans ?_
    have : (attachV w >>= fun _ => share (place q a i) w >>= fun _ => detachV w >>= fun _ => (pure (.cell b j) : M α Loc)) ⟨m2, s.stk ++ [.ref b j]⟩ =
        .ok (.cell b j) ⟨m5, s.stk ++ [.ref b j]⟩ := by
      rw [bind_eq e3, bind_eq e4, bind_eq e5]
      rfl
    cases w with
    | ref _ _ => exact absurd trivial hwr
    | _ => exact this
  | @num b j k' n' cells' x hb hk' hcd hc' =>
    have hb0 : b ∈ stkPtrs (s.stk ++ [.ref b j]) := hv0 b (by simp [V.ptr])
    have hab : b ≠ a := by
      rintro rfl
      obtain ⟨r1, g1⟩ := h
      obtain ⟨r2, g2⟩ := hb
      have hty := InvM.typed hi b _ g1 c (List.mem_of_getElem? hc)
      rw [g1] at g2
      cases g2
      cases c with
      | raw y => cases ht
      | var v => exact hk'.1 hty
      | pair k v => exact hk'.2 hty
    have hb1 := hb.kept k1 (fun h => hab h) (i1.stk_live hb0)
    obtain ⟨m2, e2, i2, h2, k2, l2⟩ := write_place (own' := b :: own) i1 h1 hc1 (Cell.get_put ht _) (.num k' x) (fun d => by
      simp [V.ptr, List.count_cons])
    rw [List.set_set, Cell.put_put] at h2
    obtain ⟨m3, e3, i3, k3⟩ := detach_tot (v := .arr b) (own := own) (s := ⟨m2, s.stk ++ [.ref b j]⟩) i2
    refine key m3 (.inl ?_) i3 (h2.kept k3 id (i3.stk_live ha0)) (k2.trans k3.oth)
    obtain ⟨rc, g⟩ := hb1
    unfold dereference
    rw [bind_eq hr1]
    simp only
    rw [bind_eq (derefLoc_num g hk')]
    simp only
    rw [bind_eq (obj_eq g), bind_eq (rawAt_run g hc')]
    rw [if_neg hcd, bind_eq e2, bind_eq e3]
    rfl

theorem Deno.kept {P : Addr → Prop} {m1 m2 : List (Option (Obj α))} {v w : V α} (h : Deno m1 v w) (hk : Oth P m1 m2)
    (hp : ∀ b j, v = .ref b j → ¬ P b) (hl : ∀ b ∈ v.ptr.toList, Live m2 b) : Deno m2 v w := by
  cases h with
  | self hv => exact .self hv
  | var h1 h2 h3 h4 h5 => exact .var (h1.kept hk (hp _ _ rfl) (hl _ (by simp [V.ptr]))) h2 h3 h4 h5
  | num h1 h2 h3 h4 => exact .num (h1.kept hk (hp _ _ rfl) (hl _ (by simp [V.ptr]))) h2 h3 h4

/-- The element type is one that holds vars. -/
def Holds (k : Kind) : Prop := k = .var ∨ k = .pair

/-- Assignment by way of a temporary reference to an element. -/
theorem refAssign_tot [Env α] {s : State α} {own : List Addr} {a : Addr} {k : Kind} {n i : Nat} {cells : List (Cell α)} {v w : V α}
    (hi : Inv s (a :: own)) (ha : a ∈ stkPtrs s.stk) (h : Is s.mem a k n cells) (hk : Holds k) {c : Cell α} (hc : cells[i]? = some c)
    {t : V α} (ht : c.get false = some t) (hr : ¬ t.IsRef) (hv : ∀ b ∈ v.ptr.toList, b ∈ stkPtrs s.stk) (hd : Deno s.mem v w)
    (hne : v ≠ .ref a i) :
    ∃ mem', withVar (.ref a i) (fun lr => attachV v >>= fun _ => assign lr v) s = .ok () { s with mem := mem' } ∧
      Inv { s with mem := mem' } own ∧ Is mem' a k n (cells.set i (c.put false w)) ∧ Oth (· = a) s.mem mem' := by
  have i0 : Inv { s with stk := s.stk ++ [.ref a i] } own := Inv.push (v := .ref a i) hi
  have up : ∀ (x : V α) {stk : List (V α)} {b}, b ∈ stkPtrs stk → b ∈ stkPtrs (stk ++ [x]) := fun x stk b hb => by
    rw [stkPtrs_append]; exact List.mem_append_left _ hb
  obtain ⟨m1, e1, i1, k1, l1⟩ := attach_tot i0 (v := v) (fun b hb => i0.stk_live (up _ (hv b hb)))
  -- inside `operator=`
  have i2 : Inv ⟨m1, s.stk ++ [.ref a i] ++ [v]⟩ own := Inv.push (s := ⟨m1, s.stk ++ [.ref a i]⟩) i1
  obtain ⟨m2, e2, i3, k3, l3⟩ := attach_tot i2 (v := v) (fun b hb => i2.stk_live (up _ (up _ (hv b hb))))
  have h2 : Is m2 a k n cells := (h.kept k1 id (l1 a h.live)).kept k3 id (l3 a (l1 a h.live))
  have hd2 : Deno m2 v w := hd.kept (k1.trans k3) (fun _ _ _ => id) (fun b hb => i3.stk_live (up _ (up _ (hv b hb))))
  obtain ⟨m4, e4, i4, h4, k4⟩ := assignPlain_tot (q := false) i3 (up _ (up _ ha)) h2 hc ht hr hd2
    (by rintro b j rfl e; simp only [place, Bool.false_eq_true, if_false, Loc.cell.injEq] at e; exact hne (by rw [e.1, e.2]))
  obtain ⟨m5, e5, i5, k5⟩ := withVar_tot (s := ⟨m1, s.stk ++ [.ref a i]⟩) (v := v) (w := v) (m1 := m4) (b := ())
    (f := fun _ => obj a >>= fun o => match o.kind with
      | .var | .pair => attachV v >>= fun _ => assignPlain (.cell a i) v
      | k => castV k v >>= fun x => setRaw a i x) (by
      obtain ⟨rc, g⟩ := h.kept k1 id (l1 a h.live)
      refine (bind_eq (obj_eq g)).trans ?_
      rcases hk with rfl | rfl
      · exact (bind_eq e2).trans e4
      · exact (bind_eq e2).trans e4) i4
  obtain ⟨m6, e6, i6, k6⟩ := withVar_tot (s := s) (v := .ref a i) (w := .ref a i) (m1 := m5) (b := ())
    (f := fun lr => attachV v >>= fun _ => assign lr v) (by
      refine (bind_eq e1).trans ?_
      unfold assign
      refine (bind_eq (readTemp _ _ _)).trans ?_
      exact e5) i5
  exact ⟨m6, e6, i6, (h4.kept k5 id (i5.stk_live (up _ ha))).kept k6 id (i6.stk_live ha),
    (((Oth.trans k1.oth k3.oth).trans k4).trans k5.oth).trans k6.oth⟩

theorem upd_tot {s : State α} {own own' : List Addr} {a : Addr} {k : Kind} {n rc rc' : Nat} {cells : List (Cell α)} (hi : Inv s own)
    (h : s.mem[a]? = some (some ⟨k, n, rc, cells⟩)) (hp : 0 < rc')
    (hown : ∀ b, (if a = b then rc' else 0) + own.count b = (if a = b then rc else 0) + own'.count b) :
    Inv (upd s a ⟨k, n, rc', cells⟩) own' ∧ Is (upd s a ⟨k, n, rc', cells⟩).mem a k n cells ∧ Kept s.mem (upd s a ⟨k, n, rc', cells⟩).mem := by
  refine ⟨?_, ⟨rc', upd_get h _⟩, by simp [upd], fun b p _ _ hb => ?_⟩
  · have ht : Obj.Typed (⟨k, n, rc', cells⟩ : Obj α) := InvM.typed hi a ⟨k, n, rc, cells⟩ h
    refine InvM.update hi h hp ht fun b => ?_
    have := hown b
    simp only [Obj.ptrs, List.count_append, upd]
    omega
  · by_cases hab : a = b
    · subst hab
      rw [upd_get h] at hb
      cases hb
      exact ⟨_, h, rfl, rfl, rfl⟩
    · rw [upd_other hab] at hb
      exact ⟨p, hb, rfl, rfl, rfl⟩

/-- `at(i)` of an array. -/
theorem at_tot [Env α] {s : State α} {own : List Addr} {a : Addr} {k : Kind} {n : Nat} {cells : List (Cell α)} (hi : Inv s own)
    (h : Is s.mem a k n cells) (i : Nat) :
    ∃ mem', at' (.arr a) i s = .ok (.ref a i) { s with mem := mem' } ∧ Inv { s with mem := mem' } (a :: own) ∧ Is mem' a k n cells ∧
      Kept s.mem mem' := by
  obtain ⟨rc, h⟩ := h
  obtain ⟨h1, h2, h3⟩ := upd_tot (own' := a :: own) (rc' := rc + 1) hi h (Nat.succ_pos _) (fun b => by
    simp only [List.count_cons, beq_iff_eq]; split <;> omega)
  exact ⟨_, at'_arr h, h1, h2, h3⟩

/-- `at(i) = v`. -/
theorem setAt_tot [Env α] {s : State α} {own : List Addr} {a : Addr} {k : Kind} {n i : Nat} {cells : List (Cell α)} {v w : V α}
    (hi : Inv s (v.ptr.toList ++ own)) (ha : a ∈ stkPtrs s.stk) (h : Is s.mem a k n cells) (hk : Holds k) {c : Cell α} (hc : cells[i]? = some c)
    {t : V α} (ht : c.get false = some t) (hr : ¬ t.IsRef) (hd : Deno s.mem v w) (hne : v ≠ .ref a i) :
    ∃ mem', setAt (.arr a) i v s = .ok () { s with mem := mem' } ∧ Inv { s with mem := mem' } own ∧
      Is mem' a k n (cells.set i (c.put false w)) ∧ Oth (· = a) s.mem mem' := by
  have up : ∀ {b}, b ∈ stkPtrs s.stk → b ∈ stkPtrs (s.stk ++ [v]) := fun hb => by rw [stkPtrs_append]; exact List.mem_append_left _ hb
  have upv : ∀ b ∈ v.ptr.toList, b ∈ stkPtrs (s.stk ++ [v]) := fun b hb => by rw [stkPtrs_append]; exact List.mem_append_right _ hb
  obtain ⟨m1, e1, i1, h1, k1⟩ := at_tot (s := { s with stk := s.stk ++ [v] }) hi.push h i
  obtain ⟨m2, e2, i2, h2, k2⟩ := refAssign_tot i1 (up ha) h1 hk hc ht hr upv
    (hd.kept k1 (fun _ _ _ => id) fun b hb => i1.stk_live (upv b hb)) hne
  obtain ⟨m3, e3, i3, k3⟩ := withVar_tot (s := s) (v := v) (w := v) (m1 := m2) (b := ())
    (f := fun _ => at' (.arr a) i >>= fun r => withVar r fun lr => attachV v >>= fun _ => assign lr v) ((bind_eq e1).trans e2) i2
  exact ⟨m3, e3, i3, h2.kept k3 id (i3.stk_live ha), (k1.oth.trans k2).trans k3.oth⟩

theorem growCells_vars {k : Kind} {cells : List (Cell α)} {c : Int} (hc : 0 ≤ c) :
    ∃ m, growCells k cells c = .ok (cells ++ List.replicate m (freshCell k)) ∧ c ≤ (cells.length + m : Nat) := by
  unfold growCells
  by_cases h0 : cells.length = 0
  · rw [if_pos h0, if_neg (by omega), List.length_eq_zero_iff.1 h0]
    exact ⟨c.toNat, by simp, by simp⟩
  · rw [if_neg h0]
    by_cases h1 : (cells.length : Int) < c
    · rw [if_pos h1]
      exact ⟨_, rfl, by omega⟩
    · rw [if_neg h1]
      exact ⟨0, by simp, by omega⟩

/-- `Heap::resize`. -/
theorem heapResize_tot [Env α] {s : State α} {own : List Addr} {a : Addr} {k : Kind} {n m : Nat} {cells : List (Cell α)} (hi : Inv s own)
    (h : Is s.mem a k n cells) (hk : Holds k) (hm : m ≤ 2 ^ 30) :
    ∃ mem' d, heapResize a m s = .ok () { s with mem := mem' } ∧ Inv { s with mem := mem' } own ∧
      Is mem' a k m (cells ++ List.replicate d (freshCell k)) ∧ m ≤ cells.length + d ∧ Oth (· = a) s.mem mem' := by
  obtain ⟨rc, h⟩ := h
  have hnc : k ≠ .char := by rcases hk with rfl | rfl <;> decide
  obtain ⟨c, hc, hl⟩ := Alloc.allocSize_least (m : Int) (by omega) (by exact_mod_cast hm)
  have hcm : (m : Int) ≤ c := hl.2.1
  obtain ⟨d, hg, hd⟩ := growCells_vars (k := k) (cells := cells) (c := c) (by omega)
  have hres : resizeObj (⟨k, n, rc, cells⟩ : Obj α) m = .ok ⟨k, m, rc, cells ++ List.replicate d (freshCell k)⟩ := by
    unfold resizeObj
    simp only [if_neg hnc]
    rw [hc, Outcome.bind_ok, hg, Outcome.bind_ok]
    unfold terminate
    rw [if_neg hnc, Outcome.bind_ok]
  have e : heapResize a m s = .ok () (upd s a ⟨k, m, rc, cells ++ List.replicate d (freshCell k)⟩) := by
    unfold heapResize
    rw [bind_eq (obj_eq h), hres]
    rfl
  obtain ⟨i1, -, -⟩ := heapResize_ok e hi
  refine ⟨_, d, e, i1, ⟨rc, upd_get h _⟩, by omega, by simp, fun b p hb _ hp => ?_⟩
  have hb' : a ≠ b := fun e => hb e.symm
  exact ⟨p, by simpa [List.getElem?_set_ne hb'] using hp, rfl, rfl, rfl⟩

/-- `resize` of a variable that is an array. -/
theorem resize_tot [Env α] {s : State α} {own : List Addr} {a : Addr} {k : Kind} {x n m : Nat} {cells : List (Cell α)} (hi : Inv s own)
    (hx : s.stk[x]? = some (.arr a)) (h : Is s.mem a k n cells) (hk : Holds k) (hm : m ≤ 2 ^ 30) :
    ∃ mem' d, resize (.slot x) m s = .ok () { s with mem := mem' } ∧ Inv { s with mem := mem' } own ∧
      Is mem' a k m (cells ++ List.replicate d (freshCell k)) ∧ m ≤ cells.length + d ∧ Oth (· = a) s.mem mem' := by
  obtain ⟨m', d, h1, h2⟩ := heapResize_tot hi h hk hm
  refine ⟨m', d, ?_, h2⟩
  unfold resize
  rw [if_neg (show ¬ ((m : Int) < 0) by omega)]
  rw [bind_eq (dereference_arr (readSlot hx)), bind_eq (readSlot hx)]
  simp only [bind_eq (readSlot hx), bind_eq (heapOf_arr a s)]
  exact h1

/-- `operator[](int)`. -/
theorem index_tot [Env α] {s : State α} {own : List Addr} {a : Addr} {k : Kind} {x n i : Nat} {cells : List (Cell α)} (hi : Inv s own)
    (hx : s.stk[x]? = some (.arr a)) (h : Is s.mem a k n cells) (hk : Holds k) (hl : n ≤ cells.length) (hm : i + 1 ≤ 2 ^ 30) :
    ∃ mem' d, index (.slot x) i s = .ok (.ref a i) { s with mem := mem' } ∧ Inv { s with mem := mem' } (a :: own) ∧
      Is mem' a k (max n (i + 1)) (cells ++ List.replicate d (freshCell k)) ∧ max n (i + 1) ≤ cells.length + d ∧ Oth (· = a) s.mem mem' := by
  by_cases hlt : i < n
  · obtain ⟨rc, h⟩ := h
    obtain ⟨h1, h2, h3⟩ := upd_tot (own' := a :: own) (rc' := rc + 1) hi h (Nat.succ_pos _) (fun b => by
      simp only [List.count_cons, beq_iff_eq]; split <;> omega)
    rw [show max n (i + 1) = n by omega]
    exact ⟨_, 0, index_in hx h hlt, h1, by simpa [upd] using h2, by simpa using hl, h3.oth⟩
  · rw [show max n (i + 1) = i + 1 by omega]
    obtain ⟨m1, d, e1, i1, ⟨rc1, h1⟩, l1, k1⟩ := resize_tot (m := i + 1) hi hx h hk hm
    obtain ⟨h2, h3, h4⟩ := upd_tot (s := { s with mem := m1 }) (own' := a :: own) (rc' := rc1 + 1) i1 h1 (Nat.succ_pos _) (fun b => by
      simp only [List.count_cons, beq_iff_eq]; split <;> omega)
    refine ⟨_, d, ?_, h2, h3, l1, k1.trans h4.oth⟩
    obtain ⟨rc, h⟩ := h
    unfold index
    rw [bind_eq (readSlot hx)]
    simp only
    unfold indexPlain
    rw [if_neg (show ¬ ((i : Int) < 0) by omega), bind_eq (readSlot hx), bind_eq (sizeV_arr h)]
    rw [if_pos (show ((i : Int) ≥ (n : Int)) by omega)]
    have e1' : resize (.slot x) ((i : Int) + 1) s = .ok () { s with mem := m1 } := by
      rw [← e1]
      congr 1
    rw [bind_eq e1']
    exact index_tail (s := { s with mem := m1 }) hx h1

theorem fresh_get (k : Kind) (hk : Holds k) : (freshCell k : Cell α).get false = some .nil := by
  rcases hk with rfl | rfl <;> rfl

theorem fresh_clean (k : Kind) : (freshCell k : Cell α).Clean := by
  cases k <;> first | trivial | exact id | exact ⟨id, id⟩

/-- `x[i] = v`. -/
theorem setIndex_tot [Env α] {s : State α} {own : List Addr} {a : Addr} {k : Kind} {x n i : Nat} {cells : List (Cell α)} {v w : V α}
    (hi : Inv s (v.ptr.toList ++ own)) (hx : s.stk[x]? = some (.arr a)) (h : Is s.mem a k n cells) (hk : Holds k) (hl : n ≤ cells.length)
    (hm : i + 1 ≤ 2 ^ 30) (hcl : ∀ c ∈ cells, c.Clean) (hd : Deno s.mem v w) (hne : ∀ j, v = .ref a j → j ≠ i ∧ j < cells.length) :
    ∃ mem' d c, setIndex (.slot x) i v s = .ok () { s with mem := mem' } ∧ Inv { s with mem := mem' } own ∧
      (cells ++ List.replicate d (freshCell k))[i]? = some c ∧
      Is mem' a k (max n (i + 1)) ((cells ++ List.replicate d (freshCell k)).set i (c.put false w)) ∧ max n (i + 1) ≤ cells.length + d ∧
      Oth (· = a) s.mem mem' := by
  have up : ∀ {b}, b ∈ stkPtrs s.stk → b ∈ stkPtrs (s.stk ++ [v]) := fun hb => by rw [stkPtrs_append]; exact List.mem_append_left _ hb
  have upv : ∀ b ∈ v.ptr.toList, b ∈ stkPtrs (s.stk ++ [v]) := fun b hb => by rw [stkPtrs_append]; exact List.mem_append_right _ hb
  have ha : a ∈ stkPtrs s.stk := mem_stkPtrs hx (by simp [V.ptr])
  obtain ⟨m1, d, e1, i1, h1, l1, k1⟩ := index_tot (s := { s with stk := s.stk ++ [v] }) (i := i) hi.push (slot_append hx) h hk hl hm
  have hlt : i < (cells ++ List.replicate d (freshCell k)).length := by simp; omega
  obtain ⟨c, hc⟩ : ∃ c, (cells ++ List.replicate d (freshCell k))[i]? = some c := ⟨_, List.getElem?_eq_getElem hlt⟩
  have hcmem := List.mem_of_getElem? hc
  have hcc : c.Clean := by
    rcases List.mem_append.1 hcmem with h | h
    · exact hcl c h
    · rw [List.eq_of_mem_replicate h]; exact fresh_clean k
  have hty : CellOk k c := by
    obtain ⟨rc, g⟩ := h1
    exact InvM.typed i1 a _ g c hcmem
  obtain ⟨t, ht⟩ : ∃ t, c.get false = some t := by
    cases c with
    | raw y => rcases hk with hk | hk <;> [exact absurd hk hty.1; exact absurd hk hty.2]
    | var v => exact ⟨_, rfl⟩
    | pair k v => exact ⟨_, rfl⟩
  have hd1 : Deno m1 v w := by
    cases hd with
    | self hv => exact .self hv
    | @var b j k' n' cells' c' _ hb h2 h3 h4 h5 =>
      by_cases hab : b = a
      · subst hab
        obtain ⟨r1, g1⟩ := h
        obtain ⟨r2, g2⟩ := hb
        rw [g1] at g2
        cases g2
        exact .var h1 h2 (by rw [List.getElem?_append_left (List.getElem?_eq_some_iff.1 h3).1]; exact h3) h4 h5
      · exact .var (hb.kept k1 hab (i1.stk_live (upv _ (by simp [V.ptr])))) h2 h3 h4 h5
    | @num b j k' n' cells' y hb h2 h3 h4 =>
      have hab : b ≠ a := by
        rintro rfl
        obtain ⟨r1, g1⟩ := h
        obtain ⟨r2, g2⟩ := hb
        rw [g1] at g2
        cases g2
        rcases hk with hk | hk <;> [exact h2.1 hk; exact h2.2 hk]
      exact .num (hb.kept k1 hab (i1.stk_live (upv _ (by simp [V.ptr])))) h2 h3 h4
  obtain ⟨m2, e2, i2, h2, k2⟩ := refAssign_tot i1 (up ha) h1 hk hc ht (hcc.get ht) upv hd1 (fun e => (hne i e).1 rfl)
  obtain ⟨m3, e3, i3, k3⟩ := withVar_tot (s := s) (v := v) (w := v) (m1 := m2) (b := ())
    (f := fun _ => index (.slot x) i >>= fun r => withVar r fun lr => attachV v >>= fun _ => assign lr v) ((bind_eq e1).trans e2) i2
  exact ⟨m3, d, c, e3, i3, hc, h2.kept k3 id (i3.stk_live ha), l1, (k1.trans k2).trans k3.oth⟩

theorem Deno.clean {mem : List (Option (Obj α))} {v w : V α} (h : Deno mem v w) : ¬ w.IsRef := by
  cases h with
  | self h => exact h
  | var _ _ _ _ h => exact h
  | num _ _ _ _ => exact id

theorem derefV_tot {s : State α} {v w : V α} (h : Deno s.mem v w) : ∃ u, derefV v s = .ok u s ∧ (u = w ∨ ∃ b j k n cells x, u = .ref b j ∧
    Is s.mem b k n cells ∧ IsNum k ∧ w = .num k x) := by
  cases h with
  | self hv =>
    refine ⟨v, ?_, .inl rfl⟩
    cases v with
    | ref b j => exact absurd trivial hv
    | _ => rfl
  | @var b j k n cells c _ h1 h2 h3 h4 h5 =>
    refine ⟨w, ?_, .inl rfl⟩
    unfold derefV
    simp only
    rw [bind_eq (derefLoc_var h1 h2)]
    simp only
    rw [show (Loc.cell b j) = place false b j from rfl, bind_eq (read_place h1 h3 h4)]
    cases w with
    | ref _ _ => exact absurd trivial h5
    | _ => rfl
  | @num b j k n cells x h1 h2 h3 h4 =>
    refine ⟨.ref b j, ?_, .inr ⟨b, j, k, n, cells, x, rfl, h1, h2, rfl⟩⟩
    obtain ⟨rc, g⟩ := h1
    exact derefV_ref_num g h2

theorem typeV_tot {s : State α} {v w : V α} (h : Deno s.mem v w) : ∃ k, typeV v s = .ok k s := by
  obtain ⟨u, h1, h2⟩ := derefV_tot h
  have hc := h.clean
  unfold typeV
  rw [bind_eq h1]
  rcases h2 with rfl | ⟨b, j, k, n, cells, x, rfl, ⟨rc, g⟩, -, -⟩
  · cases u with
    | ref _ _ => exact absurd trivial hc
    | _ => exact ⟨_, rfl⟩
  · exact ⟨_, (bind_eq (obj_eq g)).trans rfl⟩

/-- Variable `x` is array `a`, an array of vars, and they are `vs`. -/
structure VA (s : State α) (own : List Addr) (x a : Nat) (vs : List (V α)) (cells : List (Cell α)) : Prop where
  inv : Inv s own
  slot : s.stk[x]? = some (.arr a)
  is : Is s.mem a .var vs.length cells
  elem : ∀ (i : Nat) (v : V α), vs[i]? = some v → cells[i]? = some (.var v)
  clean : ∀ c ∈ cells, c.Clean

theorem VA.le {s : State α} {own : List Addr} {x a : Nat} {vs : List (V α)} {cells : List (Cell α)} (h : VA s own x a vs cells) :
    vs.length ≤ cells.length := by
  by_contra hc
  have hlt : cells.length < vs.length := by omega
  have := h.elem cells.length vs[cells.length] (List.getElem?_eq_getElem hlt)
  have := (List.getElem?_eq_some_iff.1 this).1
  omega

theorem VA.stk {s : State α} {own : List Addr} {x a : Nat} {vs : List (V α)} {cells : List (Cell α)} (h : VA s own x a vs cells) :
    a ∈ stkPtrs s.stk := mem_stkPtrs h.slot (by simp [V.ptr])

theorem VA.cell {s : State α} {own : List Addr} {x a : Nat} {vs : List (V α)} {cells : List (Cell α)} (h : VA s own x a vs cells)
    {i : Nat} (hi : i < cells.length) : ∃ v, cells[i]? = some (.var v) ∧ ¬ v.IsRef := by
  obtain ⟨rc, g⟩ := h.is
  have hty := InvM.typed h.inv a _ g cells[i] (List.getElem_mem hi)
  have hcl := h.clean cells[i] (List.getElem_mem hi)
  cases hc : cells[i] with
  | raw y => rw [hc] at hty; exact absurd rfl hty.1
  | var v =>
    rw [hc] at hcl
    exact ⟨v, by rw [List.getElem?_eq_getElem hi, hc], hcl⟩
  | pair k v => rw [hc] at hty; cases hty

theorem VA.push_stk {s : State α} {own : List Addr} {x a : Nat} {vs : List (V α)} {cells : List (Cell α)} {v : V α}
    (h : VA s (v.ptr.toList ++ own) x a vs cells) : VA { s with stk := s.stk ++ [v] } own x a vs cells :=
  ⟨h.inv.push, slot_append h.slot, h.is, h.elem, h.clean⟩

theorem set_clean {cells : List (Cell α)} (h : ∀ c ∈ cells, c.Clean) {i : Nat} {d : Cell α} (hd : d.Clean) :
    ∀ c ∈ cells.set i d, c.Clean := by
  intro c hc
  rcases List.mem_or_eq_of_mem_set hc with h1 | h1
  · exact h c h1
  · rw [h1]; exact hd

theorem app_clean {cells : List (Cell α)} (h : ∀ c ∈ cells, c.Clean) (d : Nat) (k : Kind) :
    ∀ c ∈ cells ++ List.replicate d (freshCell k), c.Clean := by
  intro c hc
  rcases List.mem_append.1 hc with h1 | h1
  · exact h c h1
  · rw [List.eq_of_mem_replicate h1]; exact fresh_clean k

theorem elem_set {vs : List (V α)} {cells : List (Cell α)} (h : ∀ (i : Nat) (v : V α), vs[i]? = some v → cells[i]? = some (.var v))
    {i : Nat} (hi : i < cells.length) (w : V α) :
    ∀ (j : Nat) (v : V α), (vs.set i w)[j]? = some v → (cells.set i (.var w))[j]? = some (.var v) := by
  intro j v hv
  by_cases hij : i = j
  · subst hij
    have hl := (List.getElem?_eq_some_iff.1 hv).1
    rw [List.length_set] at hl
    rw [List.getElem?_set_self hl] at hv
    cases hv
    exact List.getElem?_set_self hi
  · rw [List.getElem?_set_ne hij] at hv ⊢
    exact h j v hv

/-- `x[i] = v` with a valid index. -/
theorem setIndex_va [Env α] {s : State α} {own : List Addr} {x a i : Nat} {vs : List (V α)} {cells : List (Cell α)} {v w : V α}
    (h : VA s (v.ptr.toList ++ own) x a vs cells) (hi : i < vs.length) (hm : i + 1 ≤ 2 ^ 30) (hd : Deno s.mem v w)
    (hne : ∀ j, v = .ref a j → j ≠ i) :
    ∃ mem' cells', setIndex (.slot x) i v s = .ok () { s with mem := mem' } ∧ VA { s with mem := mem' } own x a (vs.set i w) cells' ∧
      Oth (· = a) s.mem mem' := by
  obtain ⟨m1, d, c, e1, i1, hc, h1, l1, k1⟩ := setIndex_tot h.inv h.slot h.is (.inl rfl) h.le hm h.clean hd (fun j e => ⟨hne j e, by
    subst e
    cases hd with
    | self hv => exact absurd trivial hv
    | var g1 g2 g3 g4 g5 =>
      obtain ⟨r1, f1⟩ := g1
      obtain ⟨r2, f2⟩ := h.is
      rw [f1] at f2
      cases f2
      exact (List.getElem?_eq_some_iff.1 g3).1
    | num g1 g2 g3 g4 =>
      obtain ⟨r1, f1⟩ := g1
      obtain ⟨r2, f2⟩ := h.is
      rw [f1] at f2
      cases f2
      exact absurd rfl g2.1⟩)
  have hlt : i < cells.length := Nat.lt_of_lt_of_le hi h.le
  rw [show max vs.length (i + 1) = vs.length by omega] at h1
  rw [List.getElem?_append_left hlt] at hc
  obtain ⟨t, ht, -⟩ := h.cell hlt
  rw [ht] at hc
  cases hc
  refine ⟨m1, _, e1, ⟨i1, h.slot, by rw [List.length_set]; exact h1, ?_, set_clean (app_clean h.clean d _) (show Cell.Clean (.var w) from hd.clean)⟩, k1⟩
  exact elem_set (fun j u hu => by
    have := h.elem j u hu
    rw [List.getElem?_append_left (List.getElem?_eq_some_iff.1 this).1]; exact this) (by simp; omega) w

/-- `x[size] = v`. -/
theorem append_va [Env α] {s : State α} {own : List Addr} {x a : Nat} {vs : List (V α)} {cells : List (Cell α)} {v w : V α}
    (h : VA s (v.ptr.toList ++ own) x a vs cells) (hm : vs.length + 1 ≤ 2 ^ 30) (hd : Deno s.mem v w)
    (hne : ∀ j, v = .ref a j → j < vs.length) :
    ∃ mem' cells', setIndex (.slot x) vs.length v s = .ok () { s with mem := mem' } ∧ VA { s with mem := mem' } own x a (vs ++ [w]) cells' ∧
      Oth (· = a) s.mem mem' := by
  obtain ⟨m1, d, c, e1, i1, hc, h1, l1, k1⟩ := setIndex_tot h.inv h.slot h.is (.inl rfl) h.le hm h.clean hd (fun j e => ⟨by
    have := hne j e; omega, by have := hne j e; have := h.le; omega⟩)
  rw [show max vs.length (vs.length + 1) = vs.length + 1 by omega] at h1 l1
  have hcv : ∃ t, c = .var t := by
    rcases List.mem_append.1 (List.mem_of_getElem? hc) with h2 | h2
    · obtain ⟨j, hj⟩ := List.mem_iff_getElem?.1 h2
      obtain ⟨t, ht, -⟩ := h.cell (List.getElem?_eq_some_iff.1 hj).1
      rw [hj] at ht
      cases ht
      exact ⟨t, rfl⟩
    · exact ⟨_, List.eq_of_mem_replicate h2⟩
  obtain ⟨t, rfl⟩ := hcv
  refine ⟨m1, _, e1, ⟨i1, h.slot, by rw [List.length_append]; exact h1, ?_, set_clean (app_clean h.clean d _) (show Cell.Clean (.var w) from hd.clean)⟩, k1⟩
  intro j u hu
  by_cases hj : j < vs.length
  · rw [List.getElem?_append_left hj] at hu
    have := h.elem j u hu
    rw [List.getElem?_set_ne (by omega), List.getElem?_append_left (List.getElem?_eq_some_iff.1 this).1]
    exact this
  · have hl := (List.getElem?_eq_some_iff.1 hu).1
    rw [List.length_append, List.length_singleton] at hl
    have : j = vs.length := by omega
    subst this
    simp at hu
    subst hu
    exact List.getElem?_set_self (by simp; omega)

/-- `push`. -/
theorem push_va [Env α] {s : State α} {own : List Addr} {x a : Nat} {vs : List (V α)} {cells : List (Cell α)} {v w : V α}
    (h : VA s (v.ptr.toList ++ own) x a vs cells) (hm : vs.length + 1 ≤ 2 ^ 30) (hd : Deno s.mem v w)
    (hne : ∀ j, v = .ref a j → j < vs.length) :
    ∃ mem' cells', push (.slot x) v s = .ok () { s with mem := mem' } ∧ VA { s with mem := mem' } own x a (vs ++ [w]) cells' ∧
      Oth (· = a) s.mem mem' := by
  have h0 := h.push_stk
  have upv : ∀ b ∈ v.ptr.toList, b ∈ stkPtrs (s.stk ++ [v]) := fun b hb => by rw [stkPtrs_append]; exact List.mem_append_right _ hb
  obtain ⟨m1, e1, i1, k1, l1⟩ := attach_tot h0.inv (v := v) (fun b hb => h0.inv.stk_live (upv b hb))
  have h1 : VA ⟨m1, s.stk ++ [v]⟩ (v.ptr.toList ++ own) x a vs cells :=
    ⟨i1, h0.slot, h0.is.kept k1 id (l1 a h0.is.live), h.elem, h.clean⟩
  obtain ⟨m2, cells', e2, h2, k2⟩ := append_va h1 hm (hd.kept k1 (fun _ _ _ => id) (fun b hb => i1.stk_live (upv b hb))) hne
  obtain ⟨m3, e3, i3, k3⟩ := withVar_tot (s := s) (v := v) (w := v) (m1 := m2) (b := ()) (f := fun _ => do
      let t ← readLoc (.slot x)
      if !(← definedV t) then do
        if (← typeV v) ≠ none then do
          attachV v
          assign (.slot x) v
        else do
          attachV v
          setIndex (.slot x) (← sizeV t) v
      else do
        if (← typeV t) ≠ none ∧ (← typeV v) ≠ (← typeV t) then throwE (.error "push(): Incompatible types")
        else do
          attachV v
          setIndex (.slot x) (← sizeV t) v) (by
      refine (bind_eq (readSlot h0.slot)).trans ?_
      refine (bind_eq (definedV_arr a _)).trans ?_
      simp only [Bool.not_true, Bool.false_eq_true, if_false]
      refine (bind_eq (typeV_arr a _)).trans ?_
      obtain ⟨kv, hkv⟩ := typeV_tot (s := { s with stk := s.stk ++ [v] }) hd
      refine (bind_eq hkv).trans ?_
      refine (bind_eq (typeV_arr a _)).trans ?_
      rw [if_neg (by simp)]
      refine (bind_eq e1).trans ?_
      obtain ⟨rc, g⟩ := h1.is
      refine (bind_eq (sizeV_arr (s := ⟨m1, s.stk ++ [v]⟩) g)).trans ?_
      exact e2) h2.inv
  exact ⟨m3, cells', e3, ⟨i3, h.slot, h2.is.kept k3 id (i3.stk_live h.stk), h2.elem, h2.clean⟩, (k1.oth.trans k2).trans k3.oth⟩

/-- `resize` to a smaller size. -/
theorem truncate_va [Env α] {s : State α} {own : List Addr} {x a m : Nat} {vs : List (V α)} {cells : List (Cell α)}
    (h : VA s own x a vs cells) (hm : m ≤ vs.length) (hb : m ≤ 2 ^ 30) :
    ∃ mem' cells', resize (.slot x) m s = .ok () { s with mem := mem' } ∧ VA { s with mem := mem' } own x a (vs.take m) cells' ∧
      (∀ (i : Nat) (c : Cell α), cells[i]? = some c → cells'[i]? = some c) ∧ Oth (· = a) s.mem mem' := by
  obtain ⟨m1, d, e1, i1, h1, l1, k1⟩ := resize_tot h.inv h.slot h.is (.inl rfl) hb
  have hpre : ∀ (i : Nat) (c : Cell α), cells[i]? = some c → (cells ++ List.replicate d (freshCell .var))[i]? = some c := fun i c hc => by
    rw [List.getElem?_append_left (List.getElem?_eq_some_iff.1 hc).1]; exact hc
  refine ⟨m1, _, e1, ⟨i1, h.slot, by rw [List.length_take, Nat.min_eq_left hm]; exact h1, fun i v hv => ?_, app_clean h.clean d _⟩, hpre, k1⟩
  rw [List.getElem?_take] at hv
  split at hv
  · exact hpre i _ (h.elem i v hv)
  · cases hv

theorem presize_va [Env α] {s : State α} {own : List Addr} {x a m : Nat} {vs : List (V α)} {cells : List (Cell α)}
    (h : VA s own x a vs cells) (hm : m ≤ 2 ^ 30) (hb : vs.length ≤ 2 ^ 30) :
    ∃ mem' cells', presize (.slot x) m s = .ok () { s with mem := mem' } ∧ VA { s with mem := mem' } own x a vs cells' ∧ Oth (· = a) s.mem mem' := by
  obtain ⟨m1, d1, e1, i1, h1, l1, k1⟩ := resize_tot h.inv h.slot h.is (.inl rfl) hm
  obtain ⟨m2, d2, e2, i2, h2, l2, k2⟩ := resize_tot (s := { s with mem := m1 }) (m := vs.length) i1 h.slot h1 (.inl rfl) hb
  refine ⟨m2, _, ?_, ⟨i2, h.slot, h2, fun i v hv => ?_, app_clean (app_clean h.clean d1 _) d2 _⟩, k1.trans k2⟩
  · obtain ⟨rc, g⟩ := h.is
    unfold presize
    rw [bind_eq (readSlot h.slot), bind_eq (sizeV_arr g), bind_eq e1]
    exact e2
  · have := h.elem i v hv
    have hl := (List.getElem?_eq_some_iff.1 this).1
    rw [List.getElem?_append_left (by simp; omega), List.getElem?_append_left hl]
    exact this

/-- The loop of `insert`. -/
theorem moveUp_tot [Env α] {x a m : Nat} (n : Nat) : ∀ {i : Nat} {s : State α} {own : List Addr} {cells : List (Cell α)}, Inv s own →
    s.stk[x]? = some (.arr a) → Is s.mem a .var m cells → (∀ c ∈ cells, c.Clean) → n ≤ i → i < cells.length →
    ∃ mem' cells', moveUp (.slot x) 1 i n s = .ok () { s with mem := mem' } ∧ Inv { s with mem := mem' } own ∧ Is mem' a .var m cells' ∧
      (∀ c ∈ cells', c.Clean) ∧ cells'.length = cells.length ∧
      (∀ j, cells'[j]? = if i - n < j ∧ j ≤ i then cells[j - 1]? else cells[j]?) ∧ Oth (· = a) s.mem mem' := by
  induction n with
  | zero =>
    intro i s own cells hi hx h hcl hn hlt
    exact ⟨s.mem, cells, rfl, hi, h, hcl, rfl, fun j => by rw [if_neg (by omega)], Oth.refl _ _⟩
  | succ n ih =>
    intro i s own cells hi hx h hcl hn hlt
    have ha : a ∈ stkPtrs s.stk := mem_stkPtrs hx (by simp [V.ptr])
    have hcell : ∀ {j}, j < cells.length → ∃ v, cells[j]? = some (.var v) ∧ ¬ v.IsRef := by
      intro j hj
      obtain ⟨rc, g⟩ := h
      have hty := InvM.typed hi a _ g cells[j] (List.getElem_mem hj)
      have hc0 := hcl cells[j] (List.getElem_mem hj)
      cases hc : cells[j] with
      | raw y => rw [hc] at hty; exact absurd rfl hty.1
      | var v =>
        rw [hc] at hc0
        exact ⟨v, by rw [List.getElem?_eq_getElem hj, hc], hc0⟩
      | pair k v => rw [hc] at hty; cases hty
    obtain ⟨w, hw, hwr⟩ := hcell (j := i - 1) (by omega)
    obtain ⟨t, ht, htr⟩ := hcell (j := i) hlt
    obtain ⟨m1, e1, i1, h1, k1⟩ := at_tot hi h (i - 1)
    obtain ⟨m2, e2, i2, h2, k2⟩ := setAt_tot (v := .ref a (i - 1)) (own := own) i1 ha h1 (.inl rfl) ht rfl htr
      (.var h1 (.inl rfl) hw rfl hwr) (by simp; omega)
    obtain ⟨m3, cells', e3, i3, h3, hcl3, hl3, hj3, k3⟩ := ih (i := i - 1) i2 hx h2 (set_clean hcl (show Cell.Clean (.var w) from hwr))
      (by omega) (by simp; omega)
    refine ⟨m3, cells', ?_, i3, h3, hcl3, by simpa using hl3, fun j => ?_, (k1.oth.trans k2).trans k3⟩
    · unfold moveUp
      rw [bind_eq (readSlot hx)]
      have : at' (.arr a) ((i : Int) - (1 : Nat)) s = .ok (.ref a (i - 1)) { s with mem := m1 } := by
        rw [← e1]; congr 1; omega
      rw [bind_eq this, bind_eq e2]
      exact e3
    · rw [hj3 j]
      by_cases hji : j = i
      · subst hji
        rw [if_neg (by omega), if_pos (by omega), List.getElem?_set_self hlt, hw]
        rfl
      · by_cases hc : i - (n + 1) < j ∧ j ≤ i
        · rw [if_pos hc, if_pos (by omega), List.getElem?_set_ne (by omega)]
        · rw [if_neg hc, if_neg (by omega), List.getElem?_set_ne (by omega)]

/-- The loop of `remove`. -/
theorem moveDown_tot [Env α] {x a m : Nat} (n : Nat) : ∀ {i : Nat} {s : State α} {own : List Addr} {cells : List (Cell α)}, Inv s own →
    s.stk[x]? = some (.arr a) → Is s.mem a .var m cells → (∀ c ∈ cells, c.Clean) → 1 ≤ i → i + n ≤ cells.length →
    ∃ mem' cells', moveDown (.slot x) i n s = .ok () { s with mem := mem' } ∧ Inv { s with mem := mem' } own ∧ Is mem' a .var m cells' ∧
      (∀ c ∈ cells', c.Clean) ∧ cells'.length = cells.length ∧
      (∀ j, cells'[j]? = if i - 1 ≤ j ∧ j < i - 1 + n then cells[j + 1]? else cells[j]?) ∧ Oth (· = a) s.mem mem' := by
  induction n with
  | zero =>
    intro i s own cells hi hx h hcl hn hlt
    exact ⟨s.mem, cells, rfl, hi, h, hcl, rfl, fun j => by rw [if_neg (by omega)], Oth.refl _ _⟩
  | succ n ih =>
    intro i s own cells hi hx h hcl hn hlt
    have ha : a ∈ stkPtrs s.stk := mem_stkPtrs hx (by simp [V.ptr])
    have hcell : ∀ {j}, j < cells.length → ∃ v, cells[j]? = some (.var v) ∧ ¬ v.IsRef := by
      intro j hj
      obtain ⟨rc, g⟩ := h
      have hty := InvM.typed hi a _ g cells[j] (List.getElem_mem hj)
      have hc0 := hcl cells[j] (List.getElem_mem hj)
      cases hc : cells[j] with
      | raw y => rw [hc] at hty; exact absurd rfl hty.1
      | var v =>
        rw [hc] at hc0
        exact ⟨v, by rw [List.getElem?_eq_getElem hj, hc], hc0⟩
      | pair k v => rw [hc] at hty; cases hty
    obtain ⟨w, hw, hwr⟩ := hcell (j := i) (by omega)
    obtain ⟨t, ht, htr⟩ := hcell (j := i - 1) (by omega)
    obtain ⟨m1, e1, i1, h1, k1⟩ := at_tot hi h i
    obtain ⟨m2, e2, i2, h2, k2⟩ := setAt_tot (v := .ref a i) (own := own) i1 ha h1 (.inl rfl) ht rfl htr
      (.var h1 (.inl rfl) hw rfl hwr) (by simp; omega)
    obtain ⟨m3, cells', e3, i3, h3, hcl3, hl3, hj3, k3⟩ := ih (i := i + 1) i2 hx h2 (set_clean hcl (show Cell.Clean (.var w) from hwr))
      (by omega) (by simp; omega)
    refine ⟨m3, cells', ?_, i3, h3, hcl3, by simpa using hl3, fun j => ?_, (k1.oth.trans k2).trans k3⟩
    · unfold moveDown
      rw [bind_eq (readSlot hx), bind_eq e1]
      have : setAt (.arr a) ((i : Int) - 1) (.ref a i) { s with mem := m1 } = .ok () { s with mem := m2 } := by
        rw [← e2]; congr 1; omega
      rw [bind_eq this]
      exact e3
    · rw [hj3 j]
      by_cases hji : j = i - 1
      · subst hji
        rw [if_neg (by omega), if_pos (by omega), List.getElem?_set_self (by omega), show i - 1 + 1 = i by omega, hw]
        rfl
      · by_cases hc : i - 1 ≤ j ∧ j < i - 1 + (n + 1)
        · rw [if_pos hc, if_pos (by omega), List.getElem?_set_ne (by omega)]
        · rw [if_neg hc, if_neg (by omega), List.getElem?_set_ne (by omega)]

/-- `insert`. -/
theorem insert_va [Env α] {s : State α} {own : List Addr} {x a p : Nat} {vs : List (V α)} {cells : List (Cell α)} {v w : V α}
    (h : VA s (v.ptr.toList ++ own) x a vs cells) (hp : p ≤ vs.length) (hm : vs.length + 1 ≤ 2 ^ 30) (hd : Deno s.mem v w)
    (hne : ∀ j, v ≠ .ref a j) :
    ∃ mem' cells', insert (.slot x) v p s = .ok () { s with mem := mem' } ∧
      VA { s with mem := mem' } own x a (vs.take p ++ w :: vs.drop p) cells' ∧ Oth (· = a) s.mem mem' := by
  have h0 := h.push_stk
  have upv : ∀ b ∈ v.ptr.toList, b ∈ stkPtrs (s.stk ++ [v]) := fun b hb => by rw [stkPtrs_append]; exact List.mem_append_right _ hb
  obtain ⟨m1, d, e1, i1, h1, l1, k1⟩ := resize_tot (m := vs.length + 1) h0.inv h0.slot h0.is (.inl rfl) hm
  obtain ⟨m2, cells2, e2, i2, h2, c2, l2, j2, k2⟩ := moveUp_tot (n := vs.length - p) (i := vs.length) i1 h0.slot h1 (app_clean h.clean d _)
    (by omega) (by simp; omega)
  obtain ⟨m3, e3, i3, k3, l3⟩ := attach_tot i2 (v := v) (fun b hb => i2.stk_live (upv b hb))
  have hplt : p < cells2.length := by rw [l2]; simp; omega
  obtain ⟨t, ht, htr⟩ : ∃ t, cells2[p]? = some (.var t) ∧ ¬ t.IsRef := by
    obtain ⟨rc, g⟩ := h2
    have hty := InvM.typed i2 a _ g cells2[p] (List.getElem_mem hplt)
    have hc0 := c2 cells2[p] (List.getElem_mem hplt)
    cases hc : cells2[p] with
    | raw y => rw [hc] at hty; exact absurd rfl hty.1
    | var v =>
      rw [hc] at hc0
      exact ⟨v, by rw [List.getElem?_eq_getElem hplt, hc], hc0⟩
    | pair k v => rw [hc] at hty; cases hty
  have hd3 : Deno m3 v w := hd.kept ((k1.trans k2).trans k3.oth) (fun b j e => by rintro rfl; exact hne j e) (fun b hb => l3 b (i2.stk_live (upv b hb)))
  obtain ⟨m4, e4, i4, h4, k4⟩ := setAt_tot (own := own) i3 h0.stk (h2.kept k3 id (l3 a h2.live)) (.inl rfl) ht rfl htr hd3 (hne p)
  obtain ⟨m5, e5, i5, k5⟩ := withVar_tot (s := s) (v := v) (w := v) (m1 := m4) (b := ()) (f := fun lv => do
      let n ← sizeV (← readLoc (.slot x))
      if p > n then throwE (.rangeError "insert(): index too large")
      else do
        match ← kindAt (.slot x) with
        | some .var => do
          resize (.slot x) (n + 1)
          moveUp (.slot x) 1 n (n - p)
          attachV v
          setAt (← readLoc (.slot x)) p v
        | some .pair => do
          resize (.slot x) (n + 1)
          movePairsUp (.slot x) n (n - p)
          match ← heapOf (← readLoc (.slot x)) with
          | none => undef .nullDeref
          | some a => do
            attachV v
            assignPlain (.key a p) v
            setAt (← readLoc (.slot x)) p .nil
        | _ => do
          let m ← sizeV v
          resize (.slot x) (n + m)
          let n' ← sizeV (← readLoc (.slot x))
          let m' ← sizeV (← readLoc lv)
          moveUp (.slot x) m' (n' - 1) (n' - (p + m'))
          copyIn (.slot x) lv p 0 (← sizeV (← readLoc lv))) (by
      obtain ⟨rc, g⟩ := h0.is
      refine (bind_eq (readSlot h0.slot)).trans ?_
      refine (bind_eq (sizeV_arr g)).trans ?_
      rw [if_neg (by simp only; omega)]
      have hk : kindAt (.slot x) ({ s with stk := s.stk ++ [v] } : State α) = .ok (some .var) { s with stk := s.stk ++ [v] } := by
        unfold kindAt
        refine (bind_eq (readSlot h0.slot)).trans ?_
        refine (bind_eq (heapOf_arr a _)).trans ?_
        exact (bind_eq (obj_eq g)).trans rfl
      refine (bind_eq hk).trans ?_
      refine (bind_eq e1).trans ?_
      refine (bind_eq e2).trans ?_
      refine (bind_eq e3).trans ?_
      refine (bind_eq (readSlot (s := ⟨m3, s.stk ++ [v]⟩) h0.slot)).trans ?_
      exact e4) i4
  refine ⟨m5, cells2.set p (.var w), e5, ⟨i5, h.slot, ?_, ?_, set_clean c2 (show Cell.Clean (.var w) from hd.clean)⟩, ((((k1.trans k2).trans k3.oth).trans k4).trans k5.oth)⟩
  · have := h4.kept k5 id (i5.stk_live h.stk)
    rw [show (vs.take p ++ w :: vs.drop p).length = vs.length + 1 by simp; omega]
    exact this
  · intro i u hu
    by_cases hip : i = p
    · subst hip
      rw [List.getElem?_append_right (by simp)] at hu
      simp [Nat.min_eq_left hp] at hu
      subst hu
      exact List.getElem?_set_self hplt
    · rw [List.getElem?_set_ne (fun e => hip e.symm), j2 i]
      have pre : ∀ {i : Nat} {u : V α}, vs[i]? = some u → (cells ++ List.replicate d (freshCell .var))[i]? = some (Cell.var u) := fun hu => by
        have := h.elem _ _ hu
        rw [List.getElem?_append_left (List.getElem?_eq_some_iff.1 this).1]; exact this
      by_cases hlt : i < p
      · rw [if_neg (by omega)]
        rw [List.getElem?_append_left (by simp; omega), List.getElem?_take, if_pos hlt] at hu
        exact pre hu
      · rw [List.getElem?_append_right (by simp; omega)] at hu
        have hil := (List.getElem?_eq_some_iff.1 hu).1
        simp [Nat.min_eq_left hp] at hil
        rw [if_pos (by omega)]
        rw [List.length_take, Nat.min_eq_left hp, show i - p = (i - p - 1) + 1 by omega, List.getElem?_cons_succ, List.getElem?_drop] at hu
        exact pre (by rw [← hu]; congr 1; omega)

/-- `pop`: the reference to the element that has gone. -/
theorem pop_va [Env α] {s : State α} {own : List Addr} {x a : Nat} {vs : List (V α)} {cells : List (Cell α)} {u : V α}
    (h : VA s own x a (vs ++ [u]) cells) (hm : vs.length ≤ 2 ^ 30) :
    ∃ mem' cells', pop (.slot x) s = .ok (.ref a vs.length) { s with mem := mem' } ∧ VA { s with mem := mem' } (a :: own) x a vs cells' ∧
      cells'[vs.length]? = some (.var u) ∧ Oth (· = a) s.mem mem' := by
  obtain ⟨rc, g⟩ := h.is
  have e0 : sizeV (.arr a) s = .ok (vs.length + 1) s := by rw [sizeV_arr g, List.length_append]; rfl
  obtain ⟨m1, e1, i1, h1, k1⟩ := at_tot h.inv h.is vs.length
  have i1' : Inv ⟨m1, s.stk ++ [.ref a vs.length]⟩ own := Inv.push (s := ⟨m1, s.stk⟩) (v := .ref a vs.length) i1
  have hva : VA ⟨m1, s.stk ++ [.ref a vs.length]⟩ own x a (vs ++ [u]) cells := ⟨i1', slot_append h.slot, h1, h.elem, h.clean⟩
  obtain ⟨m2, cells2, e2, h2, hp2, k2⟩ := truncate_va (m := vs.length) hva (by simp) hm
  obtain ⟨m3, e3, i3, k3, l3⟩ := attach_tot h2.inv (v := .ref a vs.length) (fun b hb => h2.inv.stk_live (by
    rw [stkPtrs_append]; exact List.mem_append_right _ hb))
  obtain ⟨m4, e4, i4, k4⟩ := withVar_tot (s := ⟨m1, s.stk⟩) (v := .ref a vs.length) (w := .ref a vs.length) (m1 := m3) (b := .ref a vs.length)
    (f := fun lr => resize (.slot x) ((vs.length + 1 : Nat) - 1 : Int) >>= fun _ => readLoc lr >>= fun v => copyV v) (by
      have e2' : resize (.slot x) ((vs.length + 1 : Nat) - 1 : Int) ⟨m1, s.stk ++ [.ref a vs.length]⟩ = .ok () ⟨m2, s.stk ++ [.ref a vs.length]⟩ := by
        rw [← e2]; congr 1; omega
      refine (bind_eq e2').trans ?_
      refine (bind_eq (readTemp _ _ _)).trans ?_
      unfold copyV
      exact (bind_eq e3).trans rfl) i3
  refine ⟨m4, cells2, ?_, ⟨i4, h.slot, ?_, ?_, h2.clean⟩, hp2 _ _ (h.elem _ _ (by simp)), ((k1.oth.trans k2).trans k3.oth).trans k4.oth⟩
  · unfold pop
    rw [bind_eq (readSlot h.slot), bind_eq e0]
    have : at' (.arr a) ((vs.length + 1 : Nat) - 1 : Int) s = .ok (.ref a vs.length) ⟨m1, s.stk⟩ := by
      rw [← e1]; congr 1; omega
    rw [bind_eq this]
    exact e4
  · have := (h2.is.kept k3 id (l3 a h2.is.live)).kept k4 id (i4.stk_live h.stk)
    simpa using this
  · intro i v hv
    refine h2.elem i v ?_
    rw [List.take_append_of_le_length (le_refl _), List.take_length]
    exact hv

/-- `shift`: the first element. -/
theorem shift_va [Env α] {s : State α} {own : List Addr} {x a : Nat} {vs : List (V α)} {cells : List (Cell α)} {u : V α}
    (h : VA s own x a (u :: vs) cells) (hm : vs.length ≤ 2 ^ 30) :
    ∃ mem' cells', shift (.slot x) s = .ok u { s with mem := mem' } ∧ VA { s with mem := mem' } (u.ptr.toList ++ own) x a vs cells' ∧
      Oth (· = a) s.mem mem' := by
  obtain ⟨rc, g⟩ := h.is
  have hlt : 0 < cells.length := by have := h.le; simp at this; omega
  obtain ⟨c, rest, hcs⟩ : ∃ c rest, cells = c :: rest := by
    cases cells with
    | nil => simp at hlt
    | cons c rest => exact ⟨c, rest, rfl⟩
  have hc0 : c = .var u := by
    have := h.elem 0 u (by simp)
    rw [hcs] at this
    simpa using this
  have e0 : readLoc (.cell a 0) s = .ok u s := read_place (q := false) h.is (h.elem 0 u (by simp)) rfl
  let o : Obj α := ⟨.var, (u :: vs).length, rc, cells⟩
  have i1 : Inv (upd s a { o with cells := shiftedVars o }) (c.ptrs ++ own) := by
    refine InvM.update h.inv g (show 0 < rc from InvM.live h.inv a _ g) (shiftedVars_typed (InvM.typed h.inv a _ g)) fun b => ?_
    have := shiftedVars_count (o := o) hcs (by simp [o]) b
    simp only [List.count_append]
    simp only [Obj.ptrs, upd, o] at this ⊢
    omega
  have hs1 : Is (upd s a { o with cells := shiftedVars o }).mem a .var (vs.length + 1) (shiftedVars o) := ⟨rc, upd_get g _⟩
  have k1 : Oth (· = a) s.mem (upd s a { o with cells := shiftedVars o }).mem := ⟨by simp [upd], fun b p hb _ hp => by
    rw [upd_other (fun e => hb e.symm)] at hp
    exact ⟨p, hp, rfl, rfl, rfl⟩⟩
  obtain ⟨m2, e2, i2, k2, l2⟩ := attach_tot i1 (v := u) (fun b hb => i1.own_live (List.mem_append_left _ (by rw [hc0]; exact hb)))
  obtain ⟨m3, e3, i3, k3⟩ := destroy_ok c.ptrs (u.ptr.toList ++ own) _ (i2.congr fun b => by simp only [List.count_append]; omega)
  have ha3 : a ∈ stkPtrs s.stk := h.stk
  have hs3 := (hs1.kept k2 id (l2 a hs1.live)).kept k3.kept id (i3.stk_live ha3)
  obtain ⟨m4, d, e4, i4, hs4, l4, k4⟩ := heapResize_tot (m := vs.length) i3 hs3 (.inl rfl) hm
  refine ⟨m4, _, ?_, ⟨i4, h.slot, hs4, ?_, app_clean ?_ d _⟩, ((k1.trans k2.oth).trans k3.kept.oth).trans k4⟩
  · unfold shift
    rw [bind_eq (readSlot h.slot), bind_eq (heapOf_arr a s)]
    simp only
    unfold heapShift
    rw [bind_eq (obj_eq g)]
    rw [if_neg (by have := h.le; simp only [List.length_cons] at this ⊢; omega), if_pos (.inl rfl)]
    unfold shiftVars
    simp only [hcs]
    rw [bind_eq e0]
    have e1 : setObj a ({ o with cells := shiftedVars o }) s = .ok () (upd s a { o with cells := shiftedVars o }) := rfl
    simp only [o, hcs] at e1
    simp only [o, hcs] at e2 e3
    rw [bind_eq e1, bind_eq e2, bind_eq e3]
    exact (bind_eq e4).trans rfl
  · intro i v hv
    have hil := (List.getElem?_eq_some_iff.1 hv).1
    have h1 := h.elem (i + 1) v (by simpa using hv)
    have hlen := h.le
    simp at hlen
    have h2 : (shiftedVars o)[i]? = some (.var v) := by
      unfold shiftedVars
      rw [List.getElem?_append_left (by simp [o]; omega), List.getElem?_drop, List.getElem?_take, if_pos (by simp [o]; omega), Nat.add_comm]
      exact h1
    rw [List.getElem?_append_left (List.getElem?_eq_some_iff.1 h2).1]
    exact h2
  · intro d hd
    simp only [shiftedVars, List.mem_append, List.mem_cons] at hd
    rcases hd with hd | hd | hd
    · exact h.clean d (List.mem_of_mem_take (List.mem_of_mem_drop hd))
    · rw [hd]; exact fresh_clean _
    · exact h.clean d (List.mem_of_mem_drop hd)

/-- `unshift`; what was in the place after the last element is not destroyed. -/
theorem unshift_va [Env α] {s : State α} {own : List Addr} {x a : Nat} {vs : List (V α)} {cells : List (Cell α)} {v w : V α}
    (h : VA s (v.ptr.toList ++ own) x a vs cells) (hm : vs.length + 1 ≤ 2 ^ 30) (hd : Deno s.mem v w) (hne : ∀ j, v ≠ .ref a j) :
    ∃ mem' cells' own', unshift (.slot x) v s = .ok () { s with mem := mem' } ∧ VA { s with mem := mem' } own' x a (w :: vs) cells' ∧
      Oth (· = a) s.mem mem' := by
  have h0 := h.push_stk
  have up : ∀ (y : V α) {stk : List (V α)} {b}, b ∈ stkPtrs stk → b ∈ stkPtrs (stk ++ [y]) := fun y stk b hb => by
    rw [stkPtrs_append]; exact List.mem_append_left _ hb
  have upv : ∀ {stk : List (V α)}, ∀ b ∈ v.ptr.toList, b ∈ stkPtrs (stk ++ [v]) := fun b hb => by rw [stkPtrs_append]; exact List.mem_append_right _ hb
  obtain ⟨m1, e1, i1, k1, l1⟩ := attach_tot h0.inv (v := v) (fun b hb => h0.inv.stk_live (upv b hb))
  have i1' : Inv ⟨m1, s.stk ++ [v] ++ [v]⟩ own := Inv.push (s := ⟨m1, s.stk ++ [v]⟩) i1
  have hs1 := h0.is.kept k1 id (l1 a h0.is.live)
  obtain ⟨m2, d, e2, i2, ⟨rc, g2⟩, l2, k2⟩ := heapResize_tot (m := vs.length + 1) (s := ⟨m1, s.stk ++ [v] ++ [v]⟩) i1' hs1 (.inl rfl) hm
  let o : Obj α := ⟨.var, vs.length + 1, rc, cells ++ List.replicate d (freshCell .var)⟩
  let s2 : State α := ⟨m2, s.stk ++ [v] ++ [v]⟩
  have i3 : Inv (upd s2 a { o with cells := unshifted (.var .nil) o }) (lost o ++ own) := by
    refine InvM.update i2 g2 (show 0 < rc from InvM.live i2 a _ g2) ?_ fun b => ?_
    · intro c hc
      rcases unshifted_mem hc with hc | hc
      · subst hc; rfl
      · exact InvM.typed i2 a _ g2 c hc
    · have := unshifted_count o (.var .nil) b
      simp only [List.count_append]
      simp only [Obj.ptrs, Cell.ptrs, V.ptr, Option.toList, List.count_nil, upd, s2, o] at this ⊢
      omega
  have hs3 : Is (upd s2 a { o with cells := unshifted (.var .nil) o }).mem a .var (vs.length + 1) (unshifted (.var .nil) o) := ⟨rc, upd_get g2 _⟩
  have k3 : Oth (· = a) m2 (upd s2 a { o with cells := unshifted (.var .nil) o }).mem := ⟨by simp [upd, s2], fun b p hb _ hp => by
    rw [upd_other (fun e => hb e.symm)] at hp
    exact ⟨p, hp, rfl, rfl, rfl⟩⟩
  obtain ⟨m4, e4, i4, k4, l4⟩ := attach_tot i3 (v := v) (fun b hb => i3.stk_live (upv b hb))
  have hd4 : Deno m4 v w := hd.kept (((k1.oth.trans k2).trans k3).trans k4.oth) (fun b j e => by rintro rfl; exact hne j e)
    (fun b hb => l4 b (i3.stk_live (upv b hb)))
  obtain ⟨m5, e5, i5, hs5, k5⟩ := assignPlain_tot (q := false) (i := 0) (c := .var .nil) (t := .nil) i4 (up _ (up _ h.stk)) (hs3.kept k4 id (l4 a hs3.live))
    rfl rfl id hd4 (fun b j e e' => by
      simp only [place, Bool.false_eq_true, if_false, Loc.cell.injEq] at e'
      exact hne j (by rw [e, e'.1]))
  obtain ⟨m6, e6, i6, k6⟩ := withVar_tot (s := ⟨m1, s.stk ++ [v]⟩) (v := v) (w := v) (m1 := m5) (b := ()) (f := fun _ => do
      let o ← obj a
      heapResize a (o.size + 1)
      let o ← obj a
      if o.kind = .var then unshiftVars a o v
      else if o.kind = .pair then throwE (.error "Heap::unshift(): Can't unshift a pair")
      else unshiftNums a o v) (by
      obtain ⟨rc1, g1⟩ := hs1
      refine (bind_eq (obj_eq (s := ⟨m1, s.stk ++ [v] ++ [v]⟩) g1)).trans ?_
      refine (bind_eq e2).trans ?_
      refine (bind_eq (obj_eq (s := s2) g2)).trans ?_
      rw [if_pos rfl]
      have e3 : setObj a ({ o with cells := unshifted (.var .nil) o }) s2 = .ok () (upd s2 a { o with cells := unshifted (.var .nil) o }) := rfl
      unfold unshiftVars
      rw [if_neg (by simp only [List.length_append, List.length_replicate]; omega)]
      refine (bind_eq e3).trans ?_
      refine (bind_eq e4).trans ?_
      exact e5) i5
  obtain ⟨m7, e7, i7, k7⟩ := withVar_tot (s := s) (v := v) (w := v) (m1 := m6) (b := ()) (f := fun _ => do
      let t ← readLoc (.slot x)
      if !(← definedV t) then do
        attachV v
        assign (.slot x) v
      else do
        match ← heapOf t with
        | some _ => pure ()
        | none => array (.slot x)
        match ← heapOf (← readLoc (.slot x)) with
        | some a => do
          attachV v
          heapUnshift a v
        | none => undef .nullDeref) (by
      refine (bind_eq (readSlot h0.slot)).trans ?_
      refine (bind_eq (definedV_arr a _)).trans ?_
      simp only [Bool.not_true, Bool.false_eq_true, if_false]
      refine (bind_eq (heapOf_arr a _)).trans ?_
      simp only
      refine (bind_eq (readSlot h0.slot)).trans ?_
      refine (bind_eq (heapOf_arr a _)).trans ?_
      exact (bind_eq e1).trans e6) i6
  refine ⟨m7, _, _, e7, ⟨i7, h.slot, (hs5.kept k6 id (i6.stk_live (up _ h.stk))).kept k7 id (i7.stk_live h.stk), ?_, set_clean ?_ (show Cell.Clean (.var w) from hd.clean)⟩,
    (((((k1.oth.trans k2).trans k3).trans k4.oth).trans k5).trans k6.oth).trans k7.oth⟩
  · intro i u hu
    cases i with
    | zero =>
      simp at hu
      subst hu
      rfl
    | succ i =>
      simp at hu
      have h1 := h.elem i u hu
      have hil := (List.getElem?_eq_some_iff.1 hu).1
      have hl := (List.getElem?_eq_some_iff.1 h1).1
      unfold unshifted
      simp only [List.set_cons_zero, List.getElem?_cons_succ, o]
      rw [List.getElem?_append_left (by simp; omega), List.getElem?_take, if_pos (by omega), List.getElem?_append_left hl]
      exact h1
  · intro c hc
    rcases unshifted_mem hc with hc | hc
    · rw [hc]; exact id
    · exact app_clean h.clean d _ c hc

theorem Keep.inv {m : M α β} {pre : List Addr} {post : β → List Addr} (h : Keep false m pre post) {s s' : State α} {own : List Addr} {b : β}
    (hi : Inv s (pre ++ own)) (he : m s = .ok b s') : Inv s' (post b ++ own) := by
  have := h s own hi
  rw [he] at this
  obtain ⟨L, h1, h2, -⟩ := this
  rw [h1 rfl] at h2
  exact h2

/-- `copy()` of an array. -/
theorem copy_tot [Env α] {s : State α} {own : List Addr} {b n : Nat} {k : Kind} {cells : List (Cell α)} (hi : Inv s own)
    (h : Is s.mem b k n cells) (hl : n ≤ cells.length) (hn : n + 1 ≤ 2 ^ 30) (hk1 : k ≠ .cfloat) (hk2 : k ≠ .cdouble) :
    ∃ mem', copy (.arr b) s = .ok (.arr s.mem.length) { s with mem := mem' } ∧ Inv { s with mem := mem' } (s.mem.length :: own) ∧
      Kept s.mem mem' ∧ ∃ rest, Is mem' s.mem.length k n (cells.take n ++ rest) := by
  obtain ⟨rc, g⟩ := h
  obtain ⟨s1, o', e, ⟨d1, d2, d3, d4⟩, z1, z2, -, rest, z3⟩ := copy_arr hi g hl hn hk1 hk2
  have i1 := (copy_keep (lk := false) (V.arr b)).inv (own := own) hi e
  rw [d1] at e i1
  refine ⟨_, e, i1, ⟨by simp; omega, fun c p _ hc hp => ?_⟩, rest, o'.rc, ?_⟩
  · rw [List.getElem?_append_left (by omega)] at hp
    cases hq : s.mem[c]? with
    | none => rw [List.getElem?_eq_none_iff] at hq; omega
    | some q =>
      cases q with
      | none =>
        have := d4 c hq
        rw [hp] at this
        cases this
      | some q =>
        obtain ⟨p', hp', f1, f2, f3⟩ := d3 c q hq
        rw [hp] at hp'
        cases hp'
        exact ⟨q, rfl, f1, f2, f3⟩
  · rw [← d2, List.getElem?_append_right (le_refl _), Nat.sub_self]
    simp only [List.getElem?_cons_zero, Option.some.injEq]
    cases o'
    simp_all

/-- The element can be copied. -/
def CanCopy (mem : List (Option (Obj α))) (u : V α) : Prop := ∀ b, u = .arr b → ∃ k n cells, Is mem b k n cells ∧ n ≤ cells.length ∧
  n + 1 ≤ 2 ^ 30 ∧ k ≠ .cfloat ∧ k ≠ .cdouble

/-- `remove`; the var returned is a copy if it is an array, else a reference to the position. -/
theorem remove_va [Env α] {s : State α} {own : List Addr} {x a i : Nat} {vs : List (V α)} {cells : List (Cell α)} {u : V α}
    (h : VA s own x a vs cells) (hu : vs[i]? = some u) (hm : vs.length ≤ 2 ^ 30) (hc : CanCopy s.mem u) :
    ∃ mem' cells' r, remove (.slot x) i s = .ok r { s with mem := mem' } ∧ VA { s with mem := mem' } (r.ptr.toList ++ own) x a (vs.eraseIdx i) cells' ∧
      Oth (· = a) s.mem mem' ∧ (r = .ref a i ∧ (∀ b, u ≠ .arr b) ∨ ∃ b k n cs rest, u = .arr b ∧ r = .arr s.mem.length ∧ Is s.mem b k n cs ∧
        Is mem' s.mem.length k n (cs.take n ++ rest)) ∧ (i + 1 = vs.length → cells'[i]? = some (.var u)) := by
  obtain ⟨rc, g⟩ := h.is
  have hil := (List.getElem?_eq_some_iff.1 hu).1
  have e0 := sizeV_arr g
  obtain ⟨m1, e1, i1, h1, k1⟩ := at_tot h.inv h.is i
  have i1' : Inv ⟨m1, s.stk ++ [.ref a i]⟩ own := Inv.push (s := ⟨m1, s.stk⟩) (v := .ref a i) i1
  have hcell := h.elem i u hu
  have hur : ¬ u.IsRef := h.clean _ (List.mem_of_getElem? hcell)
  have hden : Deno m1 (.ref a i) u := .var h1 (.inl rfl) hcell rfl hur
  have ha1 : a ∈ stkPtrs (s.stk ++ [.ref a i]) := by rw [stkPtrs_append]; exact List.mem_append_left _ h.stk
  -- the copy
  obtain ⟨m2, r, e2, i2, k2, hr2⟩ : ∃ m2 r, copy (.ref a i) ⟨m1, s.stk ++ [.ref a i]⟩ = .ok r ⟨m2, s.stk ++ [.ref a i]⟩ ∧
      Inv ⟨m2, s.stk ++ [.ref a i]⟩ (r.ptr.toList ++ own) ∧ Kept m1 m2 ∧ (r = .ref a i ∧ (∀ b, u ≠ .arr b) ∨ ∃ b k n cs rest, u = .arr b ∧ r = .arr s.mem.length ∧
        Is s.mem b k n cs ∧ Is m2 s.mem.length k n (cs.take n ++ rest)) := by
    have hy : derefV (.ref a i) ⟨m1, s.stk ++ [.ref a i]⟩ = .ok u ⟨m1, s.stk ++ [.ref a i]⟩ := by
      unfold derefV
      refine (bind_eq (derefLoc_var h1 (.inl rfl))).trans ?_
      refine (bind_eq (read_place (q := false) (s := ⟨m1, s.stk ++ [.ref a i]⟩) h1 hcell rfl)).trans ?_
      revert hur
      cases u with
      | ref _ _ => exact fun hur => absurd trivial hur
      | _ => intro _; rfl
    generalize u = y at *
    have rest : (∀ b, y ≠ .arr b) → copy (.ref a i) ⟨m1, s.stk ++ [.ref a i]⟩ = copyV (.ref a i) ⟨m1, s.stk ++ [.ref a i]⟩ := by
      intro hn
      unfold copy heapOf
      rw [bind_run]
      unfold M.bind
      rw [bind_eq hy]
      cases y with
      | arr b => exact absurd rfl (hn b)
      | _ => rfl
    by_cases hb : ∃ b, y = .arr b
    · obtain ⟨b, rfl⟩ := hb
      obtain ⟨k, n, cs, hcs, hle, hn, hk1, hk2⟩ := hc b rfl
      have hb1 : Live m1 b := i1'.cell_live h1 (List.mem_of_getElem? hcell) (by simp [Cell.ptrs, V.ptr])
      obtain ⟨m2, e2, i2, k2, rest2, r2⟩ := copy_tot (s := ⟨m1, s.stk ++ [.ref a i]⟩) i1' (hcs.kept k1 id hb1) hle hn hk1 hk2
      have hlen : m1.length = s.mem.length := by
        have := at'_arr (i := i) g
        rw [e1] at this
        cases this
        simp [upd]
      simp only at e2 i2 r2
      rw [hlen] at e2 i2 r2
      refine ⟨m2, .arr s.mem.length, ?_, i2, k2, .inr ⟨b, k, n, cs, rest2, rfl, rfl, hcs, r2⟩⟩
      rw [← e2]
      unfold copy heapOf
      rw [bind_run, bind_run]
      unfold M.bind
      rw [bind_eq hy, bind_eq (derefV_arr b _)]
      rfl
    · obtain ⟨m2, e2, i2, k2, l2⟩ := attach_tot i1' (v := .ref a i) (fun b hb => by
        simp [V.ptr] at hb
        subst hb
        exact i1'.stk_live ha1)
      refine ⟨m2, .ref a i, ?_, i2, k2, .inl ⟨rfl, fun b hb' => hb ⟨b, hb'⟩⟩⟩
      rw [rest (fun b hb' => hb ⟨b, hb'⟩)]
      unfold copyV
      exact (bind_eq e2).trans rfl
  obtain ⟨m3, e3, i3, k3⟩ := withVar_tot (s := ⟨m1, s.stk⟩) (v := .ref a i) (w := .ref a i) (m1 := m2) (b := r)
    (f := fun lx => readLoc lx >>= fun v => copy v) ((bind_eq (readTemp _ _ _)).trans e2) i2
  -- the elements move
  have h3 : Is m3 a .var vs.length cells := (h1.kept k2 id (i2.stk_live ha1)).kept k3 id (i3.stk_live h.stk)
  have i3' : Inv ⟨m3, s.stk ++ [r]⟩ own := Inv.push (s := ⟨m3, s.stk⟩) i3
  obtain ⟨m4, cells4, e4, i4, h4, c4, l4, j4, k4⟩ := moveDown_tot (n := vs.length - (i + 1)) (i := i + 1) i3' (slot_append h.slot) h3 h.clean
    (by omega) (by have := h.le; omega)
  obtain ⟨m5, d, e5, i5, h5, l5, k5⟩ := resize_tot (m := vs.length - 1) i4 (slot_append h.slot) h4 (.inl rfl) (by omega)
  obtain ⟨m6, e6, i6, k6, l6⟩ := attach_tot i5 (v := r) (fun b hb => i5.stk_live (by rw [stkPtrs_append]; exact List.mem_append_right _ hb))
  obtain ⟨m7, e7, i7, k7⟩ := withVar_tot (s := ⟨m3, s.stk⟩) (v := r) (w := r) (m1 := m6) (b := r)
    (f := fun lr => moveDown (.slot x) (i + 1) (vs.length - (i + 1)) >>= fun _ => resize (.slot x) ((vs.length : Int) - 1) >>= fun _ =>
      readLoc lr >>= fun v => copyV v) (by
      refine (bind_eq e4).trans ?_
      have e5' : resize (.slot x) ((vs.length : Int) - 1) ⟨m4, s.stk ++ [r]⟩ = .ok () ⟨m5, s.stk ++ [r]⟩ := by
        rw [← e5]; congr 1; omega
      refine (bind_eq e5').trans ?_
      refine (bind_eq (readTemp _ _ _)).trans ?_
      unfold copyV
      exact (bind_eq e6).trans rfl) i6
  have hk : Oth (· = a) m2 m7 := (((k3.oth.trans k4).trans k5).trans k6.oth).trans k7.oth
  refine ⟨m7, _, r, ?_, ⟨i7, h.slot, ?_, ?_, app_clean c4 d .var⟩, (k1.oth.trans k2.oth).trans hk, ?_, fun hl => ?_⟩
  · unfold remove
    rw [bind_eq (readSlot h.slot), bind_eq e0]
    rw [if_neg (by simp only; omega), bind_eq e1]
    refine (bind_eq e3).trans ?_
    exact e7
  · have := (h5.kept k6 id (l6 a h5.live)).kept k7 id (i7.stk_live h.stk)
    rw [List.length_eraseIdx, if_pos hil]
    exact this
  · intro j v hv
    have hj : cells4[j]? = some (.var v) := by
      rw [j4 j]
      rw [List.getElem?_eraseIdx] at hv
      split at hv
      · rw [if_neg (by omega)]; exact h.elem j v hv
      · have := (List.getElem?_eq_some_iff.1 hv).1
        rw [if_pos (by omega)]; exact h.elem _ v hv
    rw [List.getElem?_append_left (List.getElem?_eq_some_iff.1 hj).1]
    exact hj
  · rcases hr2 with hr2 | ⟨b, k, n, cs, rest, f1, f2, f3, f4⟩
    · exact .inl hr2
    · refine .inr ⟨b, k, n, cs, rest, f1, f2, f3, f4.kept hk ?_ (i7.own_live (by rw [f2]; simp [V.ptr]))⟩
      have := lt_of_alive g
      omega
  · have hj : cells4[i]? = some (.var u) := by
      rw [j4 i, if_neg (by omega)]; exact hcell
    rw [List.getElem?_append_left (List.getElem?_eq_some_iff.1 hj).1]
    exact hj

end Libube.Mem

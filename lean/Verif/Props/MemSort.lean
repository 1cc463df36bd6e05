import Verif.Lemmas.MemSort
import Verif.Spec.MemSort
import Verif.Props.MemFind
import Verif.Props.MemBuild

/-! # Sorting a variable (C172) -/

namespace Libube.MemProps

open Mem MemSpec OrderSpec

variable {α : Type}

attribute [local instance] intEnv

theorem sort_items {N : Numbers α} {mem : List (Option (Obj α))} {a : Addr} {x : Val} (h : HoldsVal N mem (.arr a) x) (n : Nat) :
    sort n x = (sortLoop n [] x.elems >>= fun r => .ok (.arr r)) ∧ x.items = x.elems := by
  cases h with
  | @nums _ _ k xs _ _ _ h3 => cases k <;> simp [arrayVal] at h3 <;> subst h3 <;> exact ⟨rfl, rfl⟩
  | str _ _ _ _ => exact ⟨rfl, rfl⟩
  | list _ _ _ _ _ => exact ⟨rfl, rfl⟩
  | map _ _ _ _ _ _ => exact ⟨rfl, rfl⟩

theorem parts_elems {x : Val} {l : List Val} (h : parts x = some l) : x.elems = l := by
  cases x <;> simp [parts] at h <;> subst h <;> simp [Val.elems]

/-- Where only a newer array changes, variables have the values they had. -/
theorem values_kept [Env α] {N : Numbers α} {s : State α} {mem : List (Option (Obj α))} {w : V α} {own : List Addr} (hk : Oth (· = s.mem.length) s.mem mem)
    (hi : Inv ⟨mem, s.stk ++ [w]⟩ own) {k : Nat} {z : Val} (h : HasValue N s k z) : HasValue N ⟨mem, s.stk ++ [w]⟩ k z := by
  obtain ⟨v, u, h1, h2, h3⟩ := h
  have hs : (s.stk ++ [w])[k]? = some v := slot_append h1
  rcases h2 with ⟨rfl, hr⟩ | ⟨a, i, o, rfl, g1, g2⟩
  · exact ⟨v, v, hs, .inl ⟨rfl, hr⟩, holds_kept (le_refl _) hk hi h3 fun b hb => hi.stk_live (mem_stkPtrs hs (by simp [hb]))⟩
  · obtain ⟨o', ho'⟩ := hi.stk_live (mem_stkPtrs (a := a) hs (by simp [V.ptr]))
    have hlt := (List.getElem?_eq_some_iff.1 g1).1
    obtain ⟨o2, e1, e2, e3, e4⟩ := hk.2 a o' (Nat.ne_of_lt hlt) hlt ho'
    rw [g1] at e1
    cases e1
    refine ⟨.ref a i, u, hs, .inr ⟨a, i, o', rfl, ho', by rw [e2, e4]; exact g2⟩, holds_kept (le_refl _) hk hi h3 fun b hb => ?_⟩
    have hIs : Is mem a o'.kind o'.size o'.cells := ⟨o'.rc, ho'⟩
    rw [e4] at hIs
    rcases g2 with ⟨-, g⟩ | ⟨-, q, g⟩ | ⟨x, -, -, rfl⟩
    · exact hi.cell_live (s := ⟨mem, s.stk ++ [w]⟩) hIs (List.mem_of_getElem? g) (by simp [Cell.ptrs, hb])
    · exact hi.cell_live (s := ⟨mem, s.stk ++ [w]⟩) hIs (List.mem_of_getElem? g) (by simp [Cell.ptrs, hb])
    · cases hb

theorem others_same [Env α] {s : State α} {mem : List (Option (Obj α))} {stk : List (V α)} (hk : Oth (· = s.mem.length) s.mem mem) : AllSame s ⟨mem, stk⟩ := by
  have hget : ∀ b, b < s.mem.length → ∃ p, mem[b]? = some p := fun b hb => ⟨_, List.getElem?_eq_getElem (by have := hk.1; omega)⟩
  refine ⟨fun b o ho => ?_, fun b hb => ?_⟩
  · have hl := (List.getElem?_eq_some_iff.1 ho).1
    obtain ⟨p, hp⟩ := hget b hl
    cases p with
    | none => exact .inl hp
    | some p =>
      obtain ⟨o2, e1, e2⟩ := hk.2 b p (Nat.ne_of_lt hl) hl hp
      rw [ho] at e1
      cases e1
      exact .inr ⟨p, hp, e2⟩
  · have hl := (List.getElem?_eq_some_iff.1 hb).1
    obtain ⟨p, hp⟩ := hget b hl
    cases p with
    | none => exact hp
    | some p =>
      obtain ⟨o2, e1, -⟩ := hk.2 b p (Nat.ne_of_lt hl) hl hp
      rw [hb] at e1
      cases e1

/-- What `y = x.sort()` gives, whatever the values: what sorting gives for the values alone, in a new array. -/
theorem sort_values [Env α] (N : Numbers α) {s : State α} (hr : Reach s) {m : Nat} {x : Val} {l : List Val} (hx : HasValue N s m x) (hl : parts x = some l)
    (hm : l.length ≤ 2 ^ 30) (n : Nat) :
    (∀ y, sort n x = .ok y → ∃ s', declSort N n m s = .ok () s' ∧ NewArray N s s' y ∧ SharesWith s' s.stk.length m) ∧
      (∀ u, sort n x = .ub u → declSort N n m s = .ub u) ∧ (sort n x = .diverge → declSort N n m s = .diverge) := by
  obtain ⟨own, hi⟩ := reach_inv hr
  have hx0 := hx
  obtain ⟨v, w, h1, h2, h3⟩ := hx
  obtain ⟨c, rfl⟩ := holds_parts h3 hl
  have hv : ∀ b ∈ v.ptr.toList, b ∈ stkPtrs s.stk := fun b hb => mem_stkPtrs h1 hb
  have key := sortV_lift N n hi hv (standsFor_deno h2 h3.plain) h3 (by rw [parts_elems hl]; exact hm)
  rw [(sort_items h3 n).1]
  have hrd : readLoc (.slot m) s = .ok v s := readSlot h1
  cases hs : sortLoop n [] x.elems with
  | thrown e => exact ⟨fun _ h => (by cases h), fun _ h => (by cases h), fun h => by cases h⟩
  | abort => exact ⟨fun _ h => (by cases h), fun _ h => (by cases h), fun h => by cases h⟩
  | ub u =>
    rw [hs] at key
    refine ⟨fun _ h => (by cases h), fun _ h => ?_, fun h => by cases h⟩
    cases h
    unfold declSort
    rw [bind_eq hrd, bind_run]
    unfold M.bind
    rw [key]
  | diverge =>
    rw [hs] at key
    refine ⟨fun _ h => (by cases h), fun _ h => (by cases h), fun h => ?_⟩
    unfold declSort
    rw [bind_eq hrd]
    exact bind_diverge key
  | ok r =>
    rw [hs] at key
    refine ⟨fun _ h => ?_, fun _ h => (by cases h), fun h => by cases h⟩
    cases h
    obtain ⟨mem, vs, cells, e1, h4, k4, a4, d4⟩ := key
    refine ⟨⟨mem, s.stk ++ [.arr s.mem.length]⟩, ?_, ⟨s.mem.length, by simp, rfl, va_holds h4 (le_refl _) k4 a4, others_same k4, fun k z hz => values_kept k4 h4.inv hz⟩, ?_⟩
    · unfold declSort
      rw [bind_eq hrd, bind_eq e1]
      rfl
    · intro b o i d hb ho hil hcell
      have hb' : b = s.mem.length := by simpa using hb.symm
      subst hb'
      obtain ⟨rc, g⟩ := h4.is
      rw [ho] at g
      cases g
      have hiv : i < vs.length := hil
      have := h4.elem i vs[i] (List.getElem?_eq_getElem hiv)
      rw [hcell] at this
      have hvi : vs[i] = .arr d := by
        injection this with this
        injection this with this
        exact this.symm
      obtain ⟨j, hj⟩ := d4 _ (List.getElem_mem hiv)
      rw [hvi] at hj
      obtain ⟨v', w', q1, q2, q3⟩ := values_kept k4 h4.inv hx0
      have hv' : v' = v := by
        rw [slot_append h1] at q1
        cases q1; rfl
      subst hv'
      have hlc : Live mem c := by
        refine deno_live h4.inv (v := v') ((standsFor_deno h2 h3.plain).kept k4 (fun b j e => ?_) fun b hb => ?_) fun b hb => mem_stkPtrs (slot_append h1) hb
        · obtain ⟨o, ho⟩ := hi.stk_live (hv b (by rw [e]; simp [V.ptr]))
          exact Nat.ne_of_lt (List.getElem?_eq_some_iff.1 ho).1
        · exact h4.inv.stk_live (mem_stkPtrs (slot_append h1) hb)
      have hst : StandsFor mem v' (.arr c) := by
        rcases h2 with ⟨rfl, hr⟩ | ⟨a, i, o, rfl, g1, g2⟩
        · exact .inl ⟨rfl, hr⟩
        · obtain ⟨o', ho'⟩ := h4.inv.stk_live (mem_stkPtrs (a := a) (slot_append h1) (by simp [V.ptr]))
          have hlt := (List.getElem?_eq_some_iff.1 g1).1
          obtain ⟨o2, e1, e2, e3, e4⟩ := k4.2 a o' (Nat.ne_of_lt hlt) hlt ho'
          rw [g1] at e1
          cases e1
          exact .inr ⟨a, i, o', rfl, ho', by rw [e2, e4]; exact g2⟩
      obtain ⟨p, hp⟩ := hlc
      obtain ⟨oc, A⟩ := holds_array h3
      have hlt := (List.getElem?_eq_some_iff.1 A.obj).1
      obtain ⟨o2, e1, e2, e3, e4⟩ := k4.2 c p (Nat.ne_of_lt hlt) hlt hp
      refine ⟨v', c, p, j, slot_append h1, hst, hp, ?_⟩
      cases hj with
      | @var _ k n cells i cell w f1 f2 f3 f4 f5 =>
        obtain ⟨rc, f1⟩ := f1
        rw [e1] at f1
        cases f1
        rw [e4, f3]
        cases cell with
        | raw y => cases f4
        | var y => cases f4; exact .inl rfl
        | pair q y => cases f4; exact .inr ⟨q, rfl⟩

/-- C172: `y = x.sort()` makes a new array of the elements in non-descending order, and changes nothing else.
    Missing: elements that are nil or NaN (`sort_nil_undefined`, `Order.sort_nan_unsorted`), arrays other than strings as elements, complex numbers of double
    precision, and more elements than memory is obtained for. -/
theorem sort_partial [Env α] (N : Numbers α) {s : State α} (hr : Reach s) {m : Nat} {x : Val} {l : List Val} (hx : HasValue N s m x) (hl : parts x = some l)
    (hm : l.length ≤ 2 ^ 30) (hk : ∀ z ∈ l, OrderSpec.IsKey (visible z)) (n : Nat) (hn : 1 ≤ n) :
    ∃ r s', run (.sort N n m) s = .ok () s' ∧ Reach s' ∧ NewArray N s s' (.arr r) ∧ r.Perm l ∧ (r.Pairwise fun x y => ¬ KeyLt (visible y) (visible x)) ∧
      SharesWith s' s.stk.length m := by
  obtain ⟨v, w, h1, h2, h3⟩ := id hx
  obtain ⟨c, rfl⟩ := holds_parts h3 hl
  have hit : x.items = l := by rw [(sort_items h3 n).2, parts_elems hl]
  obtain ⟨r, e1, e2, e3⟩ := Order.sort_sorted_partial x (by rw [hit]; exact hk) n hn
  obtain ⟨s', f1, f2, f3⟩ := (sort_values N hr hx hl hm n).1 _ e1
  exact ⟨r, s', f1, hr.ok (st := .sort N n m) f1, f2, hit ▸ e2, e3, f3⟩

theorem sort_two (n : Nat) (a b : Val) (l : List Val) : sort n (.arr (a :: b :: l)) =
    (binary n [a] b >>= fun p => insertVar [a] b p >>= fun r => sortLoop n r l >>= fun r => .ok (.arr r)) := by
  have e : sortLoop n [] (a :: b :: l) = (binary n [a] b >>= fun p => insertVar [a] b p >>= fun r => sortLoop n r l) := rfl
  show (sortLoop n [] (a :: b :: l) >>= fun r => Outcome.ok (Val.arr r)) = _
  rw [e]
  cases binary n [a] b with
  | ok p =>
    simp only [Outcome.bind_ok]
    cases insertVar [a] b p <;> rfl
  | _ => rfl

theorem binary_one (n : Nat) (a b : Val) : binary n [a] b = (lt n a b >>= fun r => .ok (if r then 1 else 0)) := by
  unfold binary binaryCount
  rw [if_neg (by simp), binaryLoop, dif_pos (by simp)]
  simp only [List.length_cons, List.length_nil, Nat.zero_add, Nat.sub_zero, Nat.reduceDiv, List.getElem?_cons_zero]
  cases lt n a b with
  | ok r =>
    cases r
    · rw [Order.binaryLoop_done _ 0 0 (by simp)]; rfl
    · rw [Order.binaryLoop_done _ _ _ (by simp)]; rfl
  | _ => rfl

/-- Two elements that are nil are compared, which follows a null pointer. -/
theorem sort_nil_undefined [Env α] (N : Numbers α) {s : State α} (hr : Reach s) {m : Nat} {l : List Val} (hx : HasValue N s m (.arr (.nil :: .nil :: l)))
    (hm : l.length + 2 ≤ 2 ^ 30) (n : Nat) : declSort N (n + 1) m s = .ub .nullDeref := by
  refine (sort_values N hr hx (l := .nil :: .nil :: l) rfl (by simp only [List.length_cons]; omega) (n + 1)).2.1 _ ?_
  have e : lt (n + 1) .nil .nil = .ub .nullDeref := by simp [lt, Val.type, Val.size, Val.elems, Val.hasHeap, ltLoop]
  rw [sort_two, binary_one, e]
  rfl

/-- Of nil an empty array is made. -/
theorem sort_of_nil [Env α] (N : Numbers α) {s : State α} (hr : Reach s) {m : Nat} (h : s.stk[m]? = some .nil) (n : Nat) :
    ∃ s', declSort N n m s = .ok () s' ∧ NewArray N s s' (.arr []) := by
  obtain ⟨own, hi⟩ := reach_inv hr
  obtain ⟨c0, e0, g0⟩ := presize_new (mem := s.mem) (stk := s.stk) (m := 0) (by omega)
  have i0 : Mem.Inv ⟨s.mem, s.stk ++ [.nil]⟩ own := Inv.push (s := s) (v := .nil) hi
  have i1 : Mem.Inv ⟨s.mem ++ [some ⟨.var, 0, 1, c0⟩], s.stk ++ [.arr s.mem.length]⟩ own := by
    simpa using (presize_keep (lk := false) (.slot s.stk.length) (0 : Nat)).inv (own := own) (by simpa using i0) e0
  have hva : VA ⟨s.mem ++ [some ⟨.var, 0, 1, c0⟩], s.stk ++ [.arr s.mem.length]⟩ own s.stk.length s.mem.length [] c0 :=
    ⟨i1, by simp, ⟨1, by simp⟩, by simp, g0⟩
  have hk : Oth (· = s.mem.length) s.mem (s.mem ++ [some ⟨.var, 0, 1, c0⟩]) := by
    refine ⟨by simp, fun b o' _ hb h => ⟨o', ?_, rfl, rfl, rfl⟩⟩
    rwa [List.getElem?_append_left hb] at h
  obtain ⟨m2, f2, i2, k2, l2⟩ := attach_tot (v := .arr s.mem.length) hva.inv (fun b hb => hva.inv.stk_live (by
    simp [V.ptr] at hb; subst hb; exact hva.stk))
  obtain ⟨m3, f3, i3, k3⟩ := withVar_tot (s := s) (v := .nil) (b := (.arr s.mem.length : V α)) (w := .arr s.mem.length) (m1 := m2) (f := fun r => do
      let m ← sizeV (.nil : V α)
      presize r m
      sortFrom N n .nil r 0 m
      copyV (← readLoc r)) (by
    have hz : sizeV (.nil : V α) ⟨s.mem, s.stk ++ [.nil]⟩ = .ok 0 ⟨s.mem, s.stk ++ [.nil]⟩ := rfl
    refine (bind_eq hz).trans ((bind_eq e0).trans ?_)
    have hq : sortFrom N n .nil (.slot s.stk.length) 0 0 ⟨s.mem ++ [some ⟨.var, 0, 1, c0⟩], s.stk ++ [.arr s.mem.length]⟩ =
      .ok () ⟨s.mem ++ [some ⟨.var, 0, 1, c0⟩], s.stk ++ [.arr s.mem.length]⟩ := rfl
    refine (bind_eq hq).trans ((bind_eq (readSlot hva.slot)).trans ?_)
    unfold copyV
    exact (bind_eq f2).trans rfl) i2
  have i4 : Mem.Inv ⟨m3, s.stk ++ [.arr s.mem.length]⟩ own := Inv.push (s := ⟨m3, s.stk⟩) (v := .arr s.mem.length) i3
  have hs4 : (⟨m3, s.stk ++ [.arr s.mem.length]⟩ : State α).stk[s.stk.length]? = some (.arr s.mem.length) := by simp
  have h4 : VA ⟨m3, s.stk ++ [.arr s.mem.length]⟩ own s.stk.length s.mem.length [] c0 :=
    ⟨i4, hs4, hva.is.kept (k2.trans k3) id (i4.stk_live (mem_stkPtrs hs4 (by simp [V.ptr]))), by simp, g0⟩
  have k4 : Oth (· = s.mem.length) s.mem m3 := (hk.trans k2.oth).trans k3.oth
  refine ⟨⟨m3, s.stk ++ [.arr s.mem.length]⟩, ?_, s.mem.length, by simp, rfl, va_holds h4 (le_refl _) k4 ⟨rfl, by simp⟩, others_same k4, fun k z hz => values_kept k4 i4 hz⟩
  unfold declSort
  rw [bind_eq (readSlot h)]
  exact (bind_eq f3).trans rfl

/-! ## Cases -/

/-- `x = "BA"; y[0] = "B"; y[1] = "A"; z[2] = 1; w = nil;` -/
def progSort : List (Stmt Int) :=
  [.decl (.str [66, 65]), .decl .nil, .setElem 1 0 (.str [66]), .setElem 1 1 (.str [65]), .decl .nil, .setElem 2 2 (.num .int 1), .decl .nil]

theorem progSort_reach : Reach (final progSort) := reach_exec progSort .start (by decide +kernel)

theorem progSort_string : HasValue intNumbers (final progSort) 0 (.chars [66, 65]) :=
  ⟨.arr 0, .arr 0, by decide +kernel, .inl ⟨rfl, by simp⟩, string_holds (xs := [66, 65]) (by decide +kernel)⟩

theorem progSort_list : HasValue intNumbers (final progSort) 1 (.arr [.chars [66], .chars [65]]) := by
  refine ⟨.arr 2, .arr 2, by decide +kernel, .inl ⟨rfl, by simp⟩, ?_⟩
  obtain ⟨o, ho, hk, hn, h0, h1⟩ := obj_with (fun o => o.kind = .var ∧ o.size = 2 ∧ o.cells[0]? = some (.var (.arr 1)) ∧ o.cells[1]? = some (.var (.arr 3)))
    (final progSort).mem[2]? (by decide +kernel)
  refine .list (v := fun i => if i = 0 then .arr 1 else .arr 3) ho hk hn (fun i hi => ?_) fun i y hy => ?_
  · match i with
    | 0 => exact h0
    | 1 => exact h1
    | i + 2 => simp at hi
  · match i with
    | 0 => cases hy; exact string_holds (xs := [66]) (by decide +kernel)
    | 1 => cases hy; exact string_holds (xs := [65]) (by decide +kernel)
    | i + 2 => simp at hy

theorem progSort_nils : HasValue intNumbers (final progSort) 2 (.arr [.nil, .nil, .int 1]) := by
  refine ⟨.arr 4, .arr 4, by decide +kernel, .inl ⟨rfl, by simp⟩, ?_⟩
  obtain ⟨o, ho, hk, hn, h0, h1, h2⟩ := obj_with (fun o => o.kind = .var ∧ o.size = 3 ∧ o.cells[0]? = some (.var .nil) ∧ o.cells[1]? = some (.var .nil) ∧
    o.cells[2]? = some (.var (.num .int 1))) (final progSort).mem[4]? (by decide +kernel)
  refine .list (v := fun i => if i = 2 then .num .int 1 else .nil) ho hk hn (fun i hi => ?_) fun i y hy => ?_
  · match i with
    | 0 => exact h0
    | 1 => exact h1
    | 2 => exact h2
    | i + 3 => simp at hi
  · match i with
    | 0 => cases hy; exact .nil
    | 1 => cases hy; exact .nil
    | 2 => cases hy; exact .num rfl
    | i + 3 => simp at hy

/-- The hypotheses of `sort_partial` are met by `"BA"` and by the array of strings, which are not in order. -/
example : (∃ x l, HasValue intNumbers (final progSort) 0 x ∧ parts x = some l ∧ l.length ≤ 2 ^ 30 ∧ (∀ z ∈ l, OrderSpec.IsKey (visible z)) ∧ l = [.char 66, .char 65]) ∧
    ∃ x l, HasValue intNumbers (final progSort) 1 x ∧ parts x = some l ∧ l.length ≤ 2 ^ 30 ∧ (∀ z ∈ l, OrderSpec.IsKey (visible z)) ∧ l = [.chars [66], .chars [65]] :=
  ⟨⟨_, _, progSort_string, rfl, by simp, by simp [OrderSpec.IsKey, visible], rfl⟩, ⟨_, _, progSort_list, rfl, by simp, by simp [OrderSpec.IsKey, visible], rfl⟩⟩

/-- Those of `sort_nil_undefined` and `sort_of_nil`. -/
example : (∃ l, HasValue intNumbers (final progSort) 2 (.arr (.nil :: .nil :: l)) ∧ l.length + 2 ≤ 2 ^ 30) ∧ (final progSort).stk[3]? = some .nil :=
  ⟨⟨_, progSort_nils, by simp⟩, by decide +kernel⟩

/-- C172 in full: every array can be sorted. -/
def SortsAll : Prop := ∀ (s : State Int) (m : Nat) (x : Val) (l : List Val), Reach s → HasValue intNumbers s m x → parts x = some l →
  ∃ n r s', declSort intNumbers n m s = .ok () s' ∧ NewArray intNumbers s s' (.arr r) ∧ r.Perm l

/-- It is not so: elements that are nil. -/
theorem sort_undecided : ¬ SortsAll := by
  intro h
  obtain ⟨n, r, s', h1, -⟩ := h (final progSort) 2 _ _ progSort_reach progSort_nils rfl
  cases n with
  | zero =>
    rw [(sort_values intNumbers progSort_reach progSort_nils (l := [.nil, .nil, .int 1]) rfl (by simp) 0).2.2 (by
      rw [sort_two, binary_one]
      rfl)] at h1
    cases h1
  | succ n =>
    rw [sort_nil_undefined intNumbers progSort_reach progSort_nils (by simp) n] at h1
    cases h1

#print axioms sort_values
#print axioms sort_partial
#print axioms sort_nil_undefined
#print axioms sort_of_nil
#print axioms sort_undecided

end Libube.MemProps

import Verif.Props.MemMaps
import Verif.Lemmas.MemAssign

/-! # Arrays and maps that start as nil (C40, C44, C33) -/

namespace Libube.MemProps

open Mem MemSpec

/-- A number assigned to a variable that holds nil. -/
theorem assign_nil_num [Env α] {s : State α} {n : Nat} (h : s.stk[n]? = some .nil) (j : Kind) (x : α) :
    assign (.slot n) (.num j x) s = .ok () { s with stk := s.stk.set n (.num j x) } := by
  have hlt := (List.getElem?_eq_some_iff.1 h).1
  unfold assign
  refine (bind_eq (readSlot h)).trans ?_
  unfold assignPlain
  refine withVar_run' (w := .num j x) (mem1 := s.mem) (stk1 := s.stk.set n (.num j x)) ?_ (by simp) (detach_none rfl _)
  refine (bind_eq (readSlot (s := { s with stk := s.stk ++ [.num j x] }) (slot_append h))).trans ?_
  have hw : share (.slot n) (.num j x) { s with stk := s.stk ++ [.num j x] } = .ok () { s with stk := s.stk.set n (.num j x) ++ [.num j x] } := by
    unfold share
    refine (bind_eq (readSlot (s := { s with stk := s.stk ++ [.num j x] }) (slot_append h))).trans ?_
    refine (bind_eq (attach_none rfl _)).trans ?_
    have : writeLoc (.slot n) (.num j x) { s with stk := s.stk ++ [.num j x] } = .ok () { s with stk := s.stk.set n (.num j x) ++ [.num j x] } := by
      unfold writeLoc
      simp only [List.length_append, List.length_singleton]
      rw [if_pos (by omega), set_append h]
    exact (bind_eq this).trans rfl
  refine (bind_eq hw).trans ?_
  have hd : dereference (.slot n) { s with stk := s.stk.set n (.num j x) ++ [.num j x] } = .ok (.slot n) { s with stk := s.stk.set n (.num j x) ++ [.num j x] } := by
    unfold dereference
    exact (bind_eq (readSlot (slot_append (List.getElem?_set_self hlt)))).trans rfl
  exact (bind_eq hd).trans rfl

/-- Pushing a number onto nil makes it that number, not an array of one. -/
theorem push_nil_number [Env α] {s : State α} {n : Nat} (h : s.stk[n]? = some .nil) {j : Kind} (hj : Scalar j) (x : α) :
    run (.push n (.num j x)) s = .ok () { s with stk := s.stk.set n (.num j x) } := by
  refine (bind_eq (newNum_scalar hj x s)).trans ?_
  unfold push
  refine withVar_run' (w := .num j x) (mem1 := s.mem) (stk1 := s.stk.set n (.num j x)) ?_ (by simp) (detach_none rfl _)
  refine (bind_eq (readSlot (s := { s with stk := s.stk ++ [.num j x] }) (slot_append h))).trans ?_
  have hd : definedV (.nil : V α) { s with stk := s.stk ++ [.num j x] } = .ok false { s with stk := s.stk ++ [.num j x] } := rfl
  refine (bind_eq hd).trans ?_
  simp only [Bool.not_false, if_true]
  refine (bind_eq (typeV_num j x _)).trans ?_
  rw [if_pos (by simp)]
  refine (bind_eq (attach_none rfl _)).trans ?_
  rw [assign_nil_num (s := { s with stk := s.stk ++ [.num j x] }) (slot_append h), set_append h]

/-- Unshifting a number onto nil likewise. -/
theorem unshift_nil_number [Env α] {s : State α} {n : Nat} (h : s.stk[n]? = some .nil) {j : Kind} (hj : Scalar j) (x : α) :
    run (.unshift n (.num j x)) s = .ok () { s with stk := s.stk.set n (.num j x) } := by
  refine (bind_eq (newNum_scalar hj x s)).trans ?_
  unfold unshift
  refine withVar_run' (w := .num j x) (mem1 := s.mem) (stk1 := s.stk.set n (.num j x)) ?_ (by simp) (detach_none rfl _)
  refine (bind_eq (readSlot (s := { s with stk := s.stk ++ [.num j x] }) (slot_append h))).trans ?_
  have hd : definedV (.nil : V α) { s with stk := s.stk ++ [.num j x] } = .ok false { s with stk := s.stk ++ [.num j x] } := rfl
  refine (bind_eq hd).trans ?_
  simp only [Bool.not_false, if_true]
  refine (bind_eq (attach_none rfl _)).trans ?_
  rw [assign_nil_num (s := { s with stk := s.stk ++ [.num j x] }) (slot_append h), set_append h]

/-- Looking up a key in nil with `at()` throws and changes nothing, unlike `operator[]`, which makes a map. -/
theorem at_key_nil_throws [Env α] {s : State α} {n : Nat} (h : s.stk[n]? = some .nil) {j : Kind} (hj : Scalar j) (x : α) :
    eval (.atKey n (.num j x)) s = .thrown (.error "var::at(): uninitialised") s := by
  refine (bind_eq (newNum_scalar hj x s)).trans ?_
  have h1 : (readLoc (.slot n) >>= fun t => mapAt t (.num j x)) { s with stk := s.stk ++ [.num j x] } =
      .thrown (.error "var::at(): uninitialised") { s with stk := s.stk ++ [.num j x] } := by
    refine (bind_eq (readSlot (s := { s with stk := s.stk ++ [.num j x] }) (slot_append h))).trans ?_
    have hd : definedV (.nil : V α) { s with stk := s.stk ++ [.num j x] } = .ok false { s with stk := s.stk ++ [.num j x] } := rfl
    exact (bind_eq hd).trans rfl
  have hd : detachV (.num j x) s = .ok () s := detach_none rfl s
  unfold withVar
  simp only [h1]
  simp [hd]

example : (final [.decl .nil] : State Int).stk[0]? = some .nil ∧ Scalar .int := by
  refine ⟨by decide +kernel, ⟨by decide, by decide⟩, by decide⟩

/-- Making an array of a number. -/
theorem wrap_num [Env α] {s : State α} {n m : Nat} {k : Kind} (hk : IsNum k) {x : α} (h : s.stk[n]? = some (.num k x)) (hm0 : 1 ≤ m) (hm : m + 1 ≤ 2 ^ 30) :
    ∃ o : Obj α, wrap (.slot n) m s = .ok () ⟨s.mem ++ [some o], s.stk.set n (.arr s.mem.length)⟩ ∧ Has True o m [Env.conv k k x] ∧ o.kind = k ∧ o.rc = 1 := by
  have hlt := (List.getElem?_eq_some_iff.1 h).1
  obtain ⟨cells, e, hraw, hlen, -, hnul⟩ := resizeObj_run (o := (⟨k, 0, 1, []⟩ : Obj α)) (m := m) hk (by simp) hm
  let o : Obj α := { kind := k, size := m, rc := 1, cells := cells }
  have h0 : Has True o m [] := ⟨hk, rfl, by simp, by simp, hlen, hraw, fun _ => hnul⟩
  have h1 := h0.snoc (by simp; omega) (Env.conv k k x)
  obtain ⟨y, hy⟩ := h0.place (i := 0) (by omega)
  refine ⟨_, ?_, h1, rfl, rfl⟩
  unfold wrap
  refine (bind_eq (readSlot h)).trans ?_
  have e1 : newHeap m (some k) s = .ok s.mem.length { s with mem := s.mem ++ [some o] } := by
    unfold newHeap
    simp only [Option.getD_some]
    rw [e]
    rfl
  refine (bind_eq e1).trans ?_
  have e2 : writeLoc (.slot n) (.arr s.mem.length) { s with mem := s.mem ++ [some o] } = .ok () ⟨s.mem ++ [some o], s.stk.set n (.arr s.mem.length)⟩ := by
    unfold writeLoc
    exact if_pos hlt
  refine (bind_eq e2).trans ?_
  refine (setAt_num (a := s.mem.length) (i := 0) (s := ⟨s.mem ++ [some o], s.stk.set n (.arr s.mem.length)⟩) (o := o) (y := y) k x (by simp) hk hy (Nat.le_refl 1)).trans ?_
  simp [upd, o]

/-- Assigning to the element after a number. -/
theorem setIndex_second [Env α] {s : State α} {n : Nat} {k : Kind} (hk : IsNum k) {x : α} (h : s.stk[n]? = some (.num k x)) (y : α) :
    ∃ o : Obj α, setIndex (.slot n) 1 (.num k y) s = .ok () ⟨s.mem ++ [some o], s.stk.set n (.arr s.mem.length)⟩ ∧
      Has True o 2 [Env.conv k k x, Env.conv k k y] ∧ o.kind = k ∧ o.rc = 1 := by
  have hlt := (List.getElem?_eq_some_iff.1 h).1
  let s1 : State α := ⟨s.mem, s.stk ++ [.num k y]⟩
  have hs1 : s1.stk[n]? = some (.num k x) := slot_append h
  obtain ⟨o, hw, hh, hok, horc⟩ := wrap_num (s := s1) (m := 2) hk hs1 (by omega) (by norm_num)
  let s2 : State α := ⟨s1.mem ++ [some o], s1.stk.set n (.arr s1.mem.length)⟩
  have hs2 : s2.stk[n]? = some (.arr s1.mem.length) := List.getElem?_set_self (by simp [s1]; omega)
  have hm2 : s2.mem[s1.mem.length]? = some (some o) := by simp [s2]
  have hsn := hh.snoc (by simp) (Env.conv k k y)
  obtain ⟨z, hz⟩ := hh.place (i := 1) (by omega)
  refine ⟨{ o with cells := o.cells.set 1 (.raw (some (Env.conv k k y))) }, ?_, hsn, hok, horc⟩
  unfold setIndex
  refine withVar_run' (w := .num k y) (mem1 := s.mem ++ [some { o with cells := o.cells.set 1 (.raw (some (Env.conv k k y))) }]) (stk1 := s.stk.set n (.arr s.mem.length)) ?_ (by simp) (detach_none rfl _)
  have e1 : Mem.index (.slot n) 1 s1 = .ok (.ref s1.mem.length 1) (upd s2 s1.mem.length { o with rc := o.rc + 1 }) := by
    unfold Mem.index
    refine (bind_eq (readSlot hs1)).trans ?_
    simp only
    unfold indexPlain
    rw [if_neg (by decide)]
    refine (bind_eq (readSlot hs1)).trans ?_
    refine (bind_eq (sizeV_num k x s1)).trans ?_
    rw [if_pos (by decide)]
    have e2 : resize (.slot n) (1 + 1) s1 = .ok () s2 := by
      unfold resize
      rw [if_neg (by decide)]
      have hd : dereference (.slot n) s1 = .ok (.slot n) s1 := by
        unfold dereference
        exact (bind_eq (readSlot hs1)).trans rfl
      refine (bind_eq hd).trans ?_
      refine (bind_eq (readSlot hs1)).trans ?_
      simp only
      rw [if_pos (by decide)]
      exact hw
    refine (bind_eq e2).trans ?_
    exact index_tail (i := 1) hs2 hm2
  refine (bind_eq e1).trans ?_
  refine (refAssign_num (o := { o with rc := o.rc + 1 }) (y := z) k y (upd_get hm2 _) (hok ▸ hk) hz (by simp; omega)).trans ?_
  simp [upd, s2, s1, hok, horc, List.set_append_left _ _ hlt]

/-- Pushing a number of the same type onto a number makes an array of the two, which is new. -/
theorem push_second_new [Env α] (hc : ConvSame α) {s : State α} {n : Nat} {k : Kind} (hk : Scalar k) {x : α} (h : s.stk[n]? = some (.num k x)) (y : α) :
    ∃ o : Obj α, run (.push n (.num k y)) s = .ok () ⟨s.mem ++ [some o], s.stk.set n (.arr s.mem.length)⟩ ∧ Elements o k [x, y] := by
  have hlt := (List.getElem?_eq_some_iff.1 h).1
  let s1 : State α := ⟨s.mem, s.stk ++ [.num k y]⟩
  have hs1 : s1.stk[n]? = some (.num k x) := slot_append h
  obtain ⟨o, h1, h2, h3, h4⟩ := setIndex_second (s := s1) hk.1 hs1 y
  rw [hc _ _ hk.2, hc _ _ hk.2] at h2
  refine ⟨o, (bind_eq (newNum_scalar hk y s)).trans ?_, h3, by rw [h2.size]; rfl, h2.elem⟩
  unfold push
  refine withVar_run' (w := .num k y) (mem1 := s.mem ++ [some o]) (stk1 := s.stk.set n (.arr s.mem.length)) ?_ (by simp) (detach_none rfl _)
  refine (bind_eq (readSlot hs1)).trans ?_
  have hd : definedV (.num k x : V α) s1 = .ok true s1 := rfl
  refine (bind_eq hd).trans ?_
  simp only [Bool.not_true, Bool.false_eq_true, if_false]
  refine (bind_eq (typeV_num k x _)).trans ?_
  refine (bind_eq (typeV_num k y _)).trans ?_
  refine (bind_eq (typeV_num k x _)).trans ?_
  rw [if_neg (by simp)]
  refine (bind_eq (attach_none rfl _)).trans ?_
  refine (bind_eq (sizeV_num k x _)).trans ?_
  refine h1.trans ?_
  simp [s1, List.set_append_left _ _ hlt]

/-- Pushing a number of the same type onto a number makes an array of the two. -/
theorem push_second [Env α] (hc : ConvSame α) {s : State α} {n : Nat} {k : Kind} (hk : Scalar k) {x : α} (h : s.stk[n]? = some (.num k x)) (y : α) :
    ∃ s', run (.push n (.num k y)) s = .ok () s' ∧ Contents s' n k [x, y] ∧ (∀ m, m ≠ n → s'.stk[m]? = s.stk[m]?) ∧
      ∀ b, b < s.mem.length → s'.mem[b]? = s.mem[b]? := by
  obtain ⟨o, h1, h2⟩ := push_second_new hc hk h y
  exact ⟨_, h1, ⟨s.mem.length, o, List.getElem?_set_self (List.getElem?_eq_some_iff.1 h).1, by simp, h2⟩,
    fun m hm => List.getElem?_set_ne (Ne.symm hm), fun b hb => List.getElem?_append_left hb⟩

/-- Pushing the numbers `xs` onto variable `n` one after another takes `s` to `s'`, none of them failing. -/
def PushAll [Env α] (n : Nat) (k : Kind) : List α → State α → State α → Prop
  | [], s, s' => s' = s
  | x :: xs, s, s' => ∃ t, run (.push n (.num k x)) s = .ok () t ∧ PushAll n k xs t s'

theorem pushAll_contents [Env α] (hc : ConvSame α) {n : Nat} {k : Kind} (hk : Scalar k) (zs : List α) :
    ∀ {s : State α} {xs : List α}, Reach s → Contents s n k xs → Fits (xs ++ zs) →
      ∃ s', PushAll n k zs s s' ∧ Contents s' n k (xs ++ zs) := by
  induction zs with
  | nil => intro s xs _ h _; exact ⟨s, rfl, by simpa using h⟩
  | cons z zs ih =>
    intro s xs hr h hf
    obtain ⟨t, h1, h2, -⟩ := push_number_partial hr z hk.1 hk h (by simp [Fits] at hf ⊢; omega)
    rw [hc _ _ hk.2] at h2
    obtain ⟨s', h3, h4⟩ := ih (hr.ok h1) h2 (by simpa using hf)
    exact ⟨s', ⟨t, h1, h3⟩, by simpa using h4⟩

/-- Two or more numbers of one type pushed onto nil make the array of them. -/
theorem array_from_nil_partial [Env α] (hc : ConvSame α) {s : State α} (hr : Reach s) {n : Nat} {k : Kind} (hk : Scalar k)
    (h : s.stk[n]? = some .nil) (x y : α) (zs : List α) (hf : Fits (x :: y :: zs)) :
    ∃ s', PushAll n k (x :: y :: zs) s s' ∧ Contents s' n k (x :: y :: zs) := by
  have h1 := push_nil_number h hk x
  obtain ⟨t, h2, h3, -, -⟩ := push_second hc (s := { s with stk := s.stk.set n (.num k x) }) hk
    (List.getElem?_set_self (List.getElem?_eq_some_iff.1 h).1) y
  obtain ⟨s', h4, h5⟩ := pushAll_contents hc hk zs ((hr.ok h1).ok h2) h3 hf
  exact ⟨s', ⟨_, h1, _, h2, h4⟩, h5⟩

attribute [local instance] intEnv

example : ConvSame Int ∧ Reach (final [.decl .nil] : State Int) ∧ Scalar .double ∧ (final [.decl .nil] : State Int).stk[0]? = some .nil ∧
    Fits [(4 : Int), 5, 6] :=
  ⟨fun _ _ _ => rfl, reach_exec [.decl .nil] .start (by decide +kernel), by simp [Scalar, Number], by decide +kernel, by simp [Fits]⟩

#print axioms push_second
#print axioms array_from_nil_partial
#print axioms push_nil_number
#print axioms unshift_nil_number
#print axioms at_key_nil_throws

end Libube.MemProps

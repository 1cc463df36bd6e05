import Verif.Lemmas.MemLimit
import Verif.Props.MemOwn

/-! # The largest arrays (C156)

Memory is obtained for a power of two of elements, counted by an `int`: 2^30 is the largest one.  Beyond, `allocSize` overflows, and its
result asks for no memory. -/

namespace Libube.MemProps

open Mem MemSpec

variable {α : Type}

/-- No program makes an array with memory for more than 2^30 elements; a string needs one of them for its end. -/
theorem memory_limit [Env α] {s : State α} (hr : Reach s) {a : Addr} {o : Obj α} (h : s.mem[a]? = some (some o)) :
    o.cells.length ≤ 2 ^ 30 := (reach_nice hr a o h).top

/-- Up to the limit, `push` adds the value: this includes the last element there is memory for. -/
theorem push_up_to_limit [Env α] {s : State α} (hr : Reach s) {n : Nat} {k j : Kind} {xs : List α} {x : α}
    (hk : Number k) (hj : Scalar j) (h : Contents s n k xs) (hn : xs.length < limit k) :
    ∃ s', run (.push n (.num j x)) s = .ok () s' ∧ Contents s' n k (xs ++ [Env.conv j k x]) ∧ OnlyArray s s' n := by
  obtain ⟨a, ⟨o, ho, hh, hko, hrc⟩, hs⟩ := good_of_contents hr hk h
  obtain ⟨o', h1, h2, h3, h4⟩ := push_lim j x hs ho hh (by rw [hko]; exact hn) hrc
  rw [hko] at h2
  refine ⟨_, (bind_eq (newNum_scalar hj x s)).trans h1, ⟨a, o', hs, upd_get ho _, h3.trans hko, ?_, h2.elem⟩, (only_upd _ _ _).onlyArray hs⟩
  rw [List.length_append]
  exact h2.size

/-- `push` of one more writes past the memory of the array. -/
theorem push_full_undefined [Env α] {s : State α} (hr : Reach s) {n : Nat} {k j : Kind} {xs : List α} {x : α}
    (hk : Number k) (hj : Scalar j) (h : Contents s n k xs) (hn : xs.length = limit k) :
    run (.push n (.num j x)) s = .ub .outOfBounds := by
  obtain ⟨a, ⟨o, ho, hh, hko, hrc⟩, hs⟩ := good_of_contents hr hk h
  refine (bind_eq (newNum_scalar hj x s)).trans ?_
  have h0 : xs ≠ [] := List.ne_nil_of_length_pos (by have := limit_ge k; omega)
  have ht := memory_limit hr ho
  rw [push_to j x hs ho, hh.size]
  exact withVar_ub (setIndex_over j x (s := { mem := s.mem, stk := s.stk ++ [.num j x] }) (slot_append hs) ho hh h0 ht
    (by rw [hko]; omega) (by rw [hko]; omega))

/-- So does assigning any element from the limit on. -/
theorem setElem_over_undefined [Env α] {s : State α} (hr : Reach s) {n i : Nat} {k j : Kind} {xs : List α} {x : α}
    (hk : Number k) (hj : Scalar j) (h : Contents s n k xs) (h0 : xs ≠ []) (hn : xs.length ≤ limit k) (hi : limit k ≤ i) :
    run (.setElem n i (.num j x)) s = .ub .outOfBounds := by
  obtain ⟨a, ⟨o, ho, hh, hko, hrc⟩, hs⟩ := good_of_contents hr hk h
  refine (bind_eq (newNum_scalar hj x s)).trans ?_
  exact setIndex_over j x hs ho hh h0 (memory_limit hr ho) (by rw [hko]; exact hn) (by rw [hko]; exact hi)

/-- And `unshift` of an array that is full. -/
theorem unshift_full_undefined [Env α] {s : State α} (hr : Reach s) {n : Nat} {k j : Kind} {xs : List α} {x : α}
    (hk : Number k) (hj : Scalar j) (h : Contents s n k xs) (hn : xs.length = limit k) :
    run (.unshift n (.num j x)) s = .ub .outOfBounds := by
  obtain ⟨a, ⟨o, ho, hh, hko, hrc⟩, hs⟩ := good_of_contents hr hk h
  exact (bind_eq (newNum_scalar hj x s)).trans (unshift_over j x hs ho hh (memory_limit hr ho) (by rw [hko]; exact hn))

/-- And `append` of more than there is memory for. -/
theorem append_over_undefined [Env α] {s : State α} (hr : Reach s) {n : Nat} {k : Kind} {xs ys : List α}
    (hk : Number k) (h : Contents s n k xs) (h0 : xs ≠ []) (hn : limit k < xs.length + ys.length) :
    run (.append n k ys) s = .ub .outOfBounds := by
  obtain ⟨a, ⟨o, ho, hh, hko, hrc⟩, hs⟩ := good_of_contents hr hk h
  have := append_over (ys := ys) hs ho hh h0 (memory_limit hr ho) (by rw [hko]; exact hn)
  rwa [hko] at this

/-- `resize` of an array of numbers beyond the limit is not noticed: the array has the new size and its former elements, but there is no
    memory for the new ones, and assigning those from 2^30 on is undefined. -/
theorem resize_over_unnoticed [Env α] {s : State α} (hr : Reach s) {n m : Nat} {k : Kind} {xs : List α} (hk : Number k) (hc : k ≠ .char)
    (h : Contents s n k xs) (h0 : xs ≠ []) (hm : 2 ^ 30 < m) :
    ∃ s', run (.resize n m) s = .ok () s' ∧ Begins s' n k m xs ∧ OnlyArray s s' n ∧
      ∀ (i : Nat) (j : Kind) (x : α), Scalar j → 2 ^ 30 ≤ i → i < m → run (.setElem n i (.num j x)) s' = .ub .outOfBounds := by
  obtain ⟨a, ⟨o, ho, hh, hko, hrc⟩, hs⟩ := good_of_contents hr hk h
  have ht := memory_limit hr ho
  have hc0 : o.cells ≠ [] := by
    have := hh.cap
    have := List.length_pos_of_ne_nil h0
    exact List.ne_nil_of_length_pos (by omega)
  have hr := heapResize_over (m := m) ho hc0 ht (by rw [hko, limit_other hc]; exact hm)
  rw [if_neg (by rw [hko]; exact hc), ← resize_heap hs] at hr
  refine ⟨_, hr, ⟨a, _, hs, upd_get ho _, hko, rfl, hh.elem⟩, (only_upd _ _ _).onlyArray hs, fun i j x hj hi hlt => ?_⟩
  refine (bind_eq (newNum_scalar hj x _)).trans (withVar_ub ?_)
  have g : ({ mem := (upd s a { o with size := m }).mem, stk := s.stk ++ [.num j x] } : State α).mem[a]? = some (some { o with size := m }) :=
    upd_get ho _
  refine (bind_eq (index_in (slot_append hs) g hlt)).trans ?_
  exact refAssign_out (o := { o with size := m, rc := o.rc + 1 }) j x (upd_get g _) hh.num (List.getElem?_eq_none (by simp only; omega))

/-- `resize` of a string beyond the limit writes the NUL past its memory. -/
theorem resize_string_undefined [Env α] {s : State α} (hr : Reach s) {n m : Nat} {xs : List α} (h : Contents s n .char xs) (h0 : xs ≠ [])
    (hm : 2 ^ 30 ≤ m) : run (.resize n m) s = .ub .outOfBounds := by
  obtain ⟨a, ⟨o, ho, hh, hko, hrc⟩, hs⟩ := good_of_contents hr ⟨by decide, by decide⟩ h
  have hc0 : o.cells ≠ [] := by
    have := hh.cap
    have := List.length_pos_of_ne_nil h0
    exact List.ne_nil_of_length_pos (by omega)
  have hr := heapResize_over (m := m) ho hc0 (memory_limit hr ho) (by rw [hko, limit_char]; omega)
  rw [if_pos hko] at hr
  exact (resize_heap hs).trans hr

/-- Making an array that large of nil or of a number fails an assertion. -/
theorem resize_new_aborts [Env α] {s : State α} {n m : Nat} {k : Kind} (hm : limit k < m) (hi : m < 2 ^ 31)
    (hv : (s.stk[n]? = some .nil ∧ k = .var) ∨ ∃ x, s.stk[n]? = some (.num k x)) : run (.resize n m) s = .abort := by
  have h1 : ¬ ((m : Int) < 0) := by omega
  have h2 : (m : Int) > 1 := by have := limit_ge k; omega
  show resize (.slot n) m s = _
  unfold resize
  rw [if_neg h1]
  rcases hv with ⟨hv, rfl⟩ | ⟨x, hv⟩
  · have hd : dereference (.slot n) s = .ok (.slot n) s := by
      unfold dereference
      rw [bind_eq (readSlot hv)]
      rfl
    rw [bind_eq hd, bind_eq (readSlot hv)]
    show wrap (.slot n) m s = _
    unfold wrap
    rw [bind_eq (readSlot hv)]
    exact bind_ab (newHeap_over (k := none) hm hi)
  · have hd : dereference (.slot n) s = .ok (.slot n) s := by
      unfold dereference
      rw [bind_eq (readSlot hv)]
      rfl
    rw [bind_eq hd, bind_eq (readSlot hv)]
    simp only [h2, if_true]
    show wrap (.slot n) m s = _
    unfold wrap
    rw [bind_eq (readSlot hv)]
    exact bind_ab (newHeap_over (k := some k) hm hi)

/-! ## A full array can be made -/

attribute [local instance] intEnv

theorem reach_runs : ∀ (sts : List (Stmt Int)) {s s' : State Int}, Reach s → Runs sts s s' → Reach s'
  | [], _, _, h, e => by cases e; exact h
  | _ :: sts, _, _, h, ⟨_, e1, e2⟩ => reach_runs sts (.ok h e1) e2

/-- `x = 1; x.push(2); x.push(3);`, then 2^30 - 5 zeros, and two elements more. -/
theorem full_reached : ∃ (s : State Int) (xs : List Int), Reach s ∧ Contents s 0 .int xs ∧ xs.length = limit .int := by
  have hr := reach_exec prog123 .start prog123_ok
  obtain ⟨ys, hy⟩ : ∃ ys : List Int, ys.length = 2 ^ 30 - 5 := ⟨List.replicate (2 ^ 30 - 5) 0, List.length_replicate⟩
  obtain ⟨s1, h1, h2, -⟩ := array_is_list_partial (fun _ _ _ => rfl) hr ⟨⟨by decide, by decide⟩, by decide⟩ prog123_contents
    [.append ys] ⟨by unfold Fits; simp, trivial, by simp [ValidOps, Op.list, Fits, hy]⟩
  have r1 := reach_runs _ hr h1
  obtain ⟨s2, h3, h4, -⟩ := push_up_to_limit (j := .int) (x := 7) r1 ⟨by decide, by decide⟩ ⟨⟨by decide, by decide⟩, by decide⟩ h2
    (by simp [listOps, Op.list, limit, hy])
  have r2 := Reach.ok r1 h3
  obtain ⟨s3, h5, h6, -⟩ := push_up_to_limit (j := .int) (x := 8) r2 ⟨by decide, by decide⟩ ⟨⟨by decide, by decide⟩, by decide⟩ h4
    (by simp [listOps, Op.list, limit, hy])
  exact ⟨s3, _, .ok r2 h5, h6, by simp [listOps, Op.list, limit, hy]⟩

example : ∃ s : State Int, Reach s ∧ run (.push 0 (.num .int 9)) s = .ub .outOfBounds ∧ run (.unshift 0 (.num .int 9)) s = .ub .outOfBounds ∧
    run (.append 0 .int [9]) s = .ub .outOfBounds := by
  obtain ⟨s, xs, h1, h2, h3⟩ := full_reached
  have hk : Scalar .int := ⟨⟨by decide, by decide⟩, by decide⟩
  have h0 : xs ≠ [] := List.ne_nil_of_length_pos (by rw [h3]; simp [limit])
  exact ⟨s, h1, push_full_undefined h1 hk.1 hk h2 h3, unshift_full_undefined h1 hk.1 hk h2 h3,
    append_over_undefined h1 hk.1 h2 h0 (by rw [h3]; simp)⟩

example : Reach (final prog123) ∧ Number .int ∧ Kind.int ≠ .char ∧ Contents (final prog123) 0 .int [1, 2, 3] ∧ ([1, 2, 3] : List Int) ≠ [] ∧
    [1, 2, 3].length ≤ limit .int ∧ limit .int ≤ 2 ^ 30 + 7 :=
  ⟨reach_exec prog123 .start prog123_ok, ⟨by decide, by decide⟩, by decide, prog123_contents, by decide, by simp [limit], by simp [limit]⟩

example : Reach (final prog123) ∧ Scalar .int ∧ [1, 2, 3].length < limit .int :=
  ⟨reach_exec prog123 .start prog123_ok, ⟨⟨by decide, by decide⟩, by decide⟩, by simp [limit]⟩

/-- `var x = "AB";` -/
example : Reach (final progAB) ∧ Contents (final progAB) 0 .char [65, 66] :=
  ⟨progAB_reach, progAB_contents⟩

example : (⟨[], [.nil, .num .int 3]⟩ : State Int).stk[0]? = some .nil ∧ limit .var < 2 ^ 30 + 1 ∧ 2 ^ 30 + 1 < 2 ^ 31 :=
  ⟨rfl, by simp [limit], by decide⟩

#print axioms memory_limit
#print axioms push_up_to_limit
#print axioms push_full_undefined
#print axioms setElem_over_undefined
#print axioms unshift_full_undefined
#print axioms append_over_undefined
#print axioms resize_over_unnoticed
#print axioms resize_string_undefined
#print axioms resize_new_aborts
#print axioms full_reached

end Libube.MemProps

import Verif.Lemmas.MemOwn
import Verif.Spec.MemLimit

/-! # The largest arrays -/

namespace Libube.Mem
open MemSpec
variable {α : Type}

theorem limit_char : limit .char = 2 ^ 30 - 1 := rfl
theorem limit_other {k : Kind} (h : k ≠ .char) : limit k = 2 ^ 30 := if_neg h
theorem limit_le (k : Kind) : limit k ≤ 2 ^ 30 := by unfold limit; split <;> omega
theorem limit_ge (k : Kind) : 2 ^ 30 ≤ limit k + 1 := by unfold limit; split <;> omega

/-! ## Up to the limit -/

theorem resizeObj_lim [Env α] {o : Obj α} {m : Nat} (hk : IsNum o.kind)
    (hr : ∀ c ∈ o.cells, ∃ y, c = Cell.raw y) (hm : m ≤ limit o.kind) :
    ∃ cells' : List (Cell α), resizeObj o m = .ok { o with size := m, cells := cells' } ∧
      (∀ c ∈ cells', ∃ y, c = Cell.raw y) ∧ m ≤ cells'.length ∧
      (∀ (i : Nat) (c' : Cell α), (i < m ∨ o.kind ≠ .char ∨ m < i) → o.cells[i]? = some c' → cells'[i]? = some c') ∧
      (o.kind = .char → cells'[m]? = some (.raw (some Env.nul))) := by
  by_cases hch : o.kind = .char
  · rw [hch, limit_char] at hm
    exact resizeObj_run hk hr (by omega)
  · rw [limit_other hch] at hm
    obtain ⟨c, hc, hl⟩ := Alloc.allocSize_least (m : Int) (by omega) (by omega)
    have hcm : (m : Int) ≤ c := hl.2.1
    obtain ⟨cells, hg, hraw, hlen, hkeep⟩ := growCells_run (c := c) hk hr (by omega)
    refine ⟨cells, ?_, hraw, by omega, fun i c' _ h => hkeep i c' h, fun h => absurd h hch⟩
    unfold resizeObj
    rw [if_neg hch, hc, Outcome.bind_ok, hg, Outcome.bind_ok]
    unfold terminate
    rw [if_neg hch]
    rfl

theorem resize_lim [Env α] {P : Prop} {k : Nat} {a : Addr} {n m : Nat} {s : State α} {o : Obj α} {xs : List α}
    (hk : s.stk[k]? = some (.arr a)) (h : s.mem[a]? = some (some o)) (hh : Has P o n xs) (hm : m ≤ limit o.kind) :
    ∃ o' : Obj α, resize (.slot k) m s = .ok () (upd s a o') ∧ Has True o' m (xs.take m) ∧ o'.kind = o.kind ∧
      o'.rc = o.rc := by
  obtain ⟨cells', h1, h2, h3, h4, h5⟩ := resizeObj_lim (o := o) (m := m) hh.num hh.raw hm
  refine ⟨{ o with size := m, cells := cells' }, ?_, ⟨hh.num, rfl, by simp, fun i x hx => ?_, h3, h2, fun _ => h5⟩, rfl, rfl⟩
  · unfold resize
    rw [if_neg (show ¬ ((m : Int) < 0) by omega)]
    rw [bind_eq (dereference_arr (readSlot hk)), bind_eq (readSlot hk)]
    simp only [bind_eq (readSlot hk), bind_eq (heapOf_arr a s)]
    show heapResize a m s = _
    unfold heapResize
    rw [bind_eq (obj_eq h), h1]
    rfl
  · rw [List.getElem?_take] at hx
    split at hx
    · exact h4 i _ (.inl (by omega)) (hh.elem i x hx)
    · cases hx

theorem index_lim [Env α] {P : Prop} {k : Nat} {a : Addr} {n : Nat} {s : State α} {o : Obj α} {xs : List α}
    (hk : s.stk[k]? = some (.arr a)) (h : s.mem[a]? = some (some o)) (hh : Has P o n xs) (hi : n + 1 ≤ limit o.kind) :
    ∃ o' : Obj α, index (.slot k) n s = .ok (.ref a n) (upd s a o') ∧ Has P o' (n + 1) xs ∧
      o'.kind = o.kind ∧ o'.rc = o.rc + 1 := by
  obtain ⟨o', h1, h2, h3, h4⟩ := resize_lim (m := n + 1) hk h hh hi
  replace h2 := h2.any (Q := P) (fun _ => trivial)
  refine ⟨{ o' with rc := o'.rc + 1 }, ?_, ?_, h3, by simp [h4]⟩
  · unfold index
    rw [bind_eq (readSlot hk)]
    simp only
    unfold indexPlain
    rw [if_neg (show ¬ ((n : Int) < 0) by omega), bind_eq (readSlot hk), bind_eq (sizeV_arr h)]
    rw [if_pos (show ((n : Int) ≥ (o.size : Int)) by rw [hh.size])]
    have h1' : resize (.slot k) ((n : Int) + 1) s = .ok () (upd s a o') := by
      rw [← h1]
      congr 1
    rw [bind_eq h1']
    refine (index_tail (s := upd s a o') hk (upd_get h o')).trans ?_
    rw [upd_upd]
  · have := h2.rc (o'.rc + 1)
    rwa [List.take_of_length_le (by have := hh.le; omega)] at this

theorem setIndex_lim [Env α] {P : Prop} {k : Nat} {a : Addr} {n : Nat} {s : State α} {o : Obj α} {xs : List α} (j : Kind)
    (x : α) (hk : s.stk[k]? = some (.arr a)) (h : s.mem[a]? = some (some o)) (hh : Has P o n xs)
    (hi : n + 1 ≤ limit o.kind) (hr : 1 ≤ o.rc) :
    ∃ o' : Obj α, setIndex (.slot k) n (.num j x) s =
        .ok () (upd s a { o' with cells := o'.cells.set n (.raw (some (Env.conv j o.kind x))) }) ∧
      Has P o' (n + 1) xs ∧ o'.kind = o.kind ∧ o'.rc = o.rc := by
  have h0 : ({ mem := s.mem, stk := s.stk ++ [.num j x] } : State α).mem[a]? = some (some o) := h
  obtain ⟨o', h1, h2, h3, h4⟩ := index_lim (s := { mem := s.mem, stk := s.stk ++ [.num j x] })
    (slot_append hk) h0 hh hi
  refine ⟨{ o' with rc := o.rc }, ?_, h2.rc _, h3, rfl⟩
  obtain ⟨y, hy⟩ := h2.place (i := n) (by omega)
  refine withVar_run (w := .num j x) (s1 := { upd s a { o' with rc := o.rc, cells := o'.cells.set n (.raw (some (Env.conv j o.kind x))) } with stk := s.stk ++ [.num j x] }) ?_ rfl (detach_none rfl _)
  rw [bind_eq h1]
  refine (refAssign_num (o := o') j x (upd_get h0 _) h2.num hy (by omega)).trans ?_
  rw [upd_upd, h3, h4]
  rfl

theorem push_to [Env α] {k : Nat} {a : Addr} {s : State α} {o : Obj α} (j : Kind) (x : α)
    (hk : s.stk[k]? = some (.arr a)) (h : s.mem[a]? = some (some o)) :
    (push (.slot k) (.num j x) s) = withVar (.num j x) (fun _ => setIndex (.slot k) o.size (.num j x)) s := by
  have h0 : ({ mem := s.mem, stk := s.stk ++ [.num j x] } : State α).mem[a]? = some (some o) := h
  have hk0 : ({ mem := s.mem, stk := s.stk ++ [.num j x] } : State α).stk[k]? = some (.arr a) := slot_append hk
  unfold push withVar
  simp only
  rw [bind_eq (readSlot hk0)]
  simp only [bind_eq (definedV_arr a _), Bool.not_true, Bool.false_eq_true, if_false]
  simp only [bind_eq (typeV_arr a _), bind_eq (typeV_num j x _), ne_eq, not_true_eq_false, false_and, if_false]
  rw [bind_eq (attach_none rfl _), bind_eq (sizeV_arr h0)]

theorem push_lim [Env α] {P : Prop} {k : Nat} {a : Addr} {s : State α} {o : Obj α} {xs : List α} (j : Kind)
    (x : α) (hk : s.stk[k]? = some (.arr a)) (h : s.mem[a]? = some (some o)) (hh : Has P o xs.length xs)
    (hn : xs.length + 1 ≤ limit o.kind) (hr : 1 ≤ o.rc) :
    ∃ o' : Obj α, push (.slot k) (.num j x) s = .ok () (upd s a o') ∧
      Has P o' (xs.length + 1) (xs ++ [Env.conv j o.kind x]) ∧ o'.kind = o.kind ∧ o'.rc = o.rc := by
  have h0 : ({ mem := s.mem, stk := s.stk ++ [.num j x] } : State α).mem[a]? = some (some o) := h
  obtain ⟨o', h1, h2, h3, h4⟩ := setIndex_lim j x (s := { mem := s.mem, stk := s.stk ++ [.num j x] }) (slot_append hk) h0 hh hn hr
  have h5 := h2.snoc (by omega) (Env.conv j o.kind x)
  refine ⟨{ o' with cells := o'.cells.set xs.length (.raw (some (Env.conv j o.kind x))) }, ?_, h5, h3, h4⟩
  rw [push_to j x hk h, hh.size]
  exact withVar_run (w := .num j x) (s1 := { upd s a { o' with cells := o'.cells.set xs.length (.raw (some (Env.conv j o.kind x))) } with stk := s.stk ++ [.num j x] })
    h1 rfl (detach_none rfl _)

/-! ## Beyond -/

theorem withVar_ub {β : Type} {v : V α} {f : Loc → M α β} {s : State α} {u : UB}
    (h : f (.slot s.stk.length) { s with stk := s.stk ++ [v] } = .ub u) : withVar v f s = .ub u := by
  unfold withVar
  simp only
  rw [h]

theorem bind_ub {β γ : Type} {m : M α β} {f : β → M α γ} {s : State α} {u : UB} (h : m s = .ub u) : (m >>= f) s = .ub u := by
  rw [bind_run]
  unfold M.bind
  rw [h]

theorem bind_ab {β γ : Type} {m : M α β} {f : β → M α γ} {s : State α} (h : m s = .abort) : (m >>= f) s = .abort := by
  rw [bind_run]
  unfold M.bind
  rw [h]

theorem need_over {k : Kind} {m : Nat} (hm : limit k < m) : (2 : Int) ^ 30 < (if k = .char then (m : Int) + 1 else m) := by
  unfold limit at hm
  split <;> simp_all <;> omega

/-- No memory is obtained. -/
theorem resizeObj_over [Env α] {o : Obj α} {m : Nat} (h0 : o.cells ≠ []) (ht : o.cells.length ≤ 2 ^ 30) (hm : limit o.kind < m) :
    resizeObj o m = if o.kind = .char then .ub .outOfBounds else .ok { o with size := m } := by
  obtain ⟨c, hc, hle, -⟩ := Alloc.allocSize_over _ (need_over hm)
  unfold resizeObj
  rw [hc, Outcome.bind_ok]
  unfold growCells
  have := List.length_pos_of_ne_nil h0
  rw [if_neg (by omega), if_neg (by omega), Outcome.bind_ok]
  unfold terminate
  split
  · next hk =>
    rw [hk, limit_char] at hm
    rw [if_neg (by omega)]
    rfl
  · rfl

theorem resize_heap [Env α] {k : Nat} {a : Addr} {m : Nat} {s : State α} (hk : s.stk[k]? = some (.arr a)) :
    resize (.slot k) m s = heapResize a m s := by
  unfold resize
  rw [if_neg (show ¬ ((m : Int) < 0) by omega)]
  rw [bind_eq (dereference_arr (readSlot hk)), bind_eq (readSlot hk)]
  simp only [bind_eq (readSlot hk), bind_eq (heapOf_arr a s)]
  rfl

theorem heapResize_over [Env α] {a : Addr} {m : Nat} {s : State α} {o : Obj α} (h : s.mem[a]? = some (some o))
    (h0 : o.cells ≠ []) (ht : o.cells.length ≤ 2 ^ 30) (hm : limit o.kind < m) :
    heapResize a m s = if o.kind = .char then .ub .outOfBounds else .ok () (upd s a { o with size := m }) := by
  unfold heapResize
  rw [bind_eq (obj_eq h), resizeObj_over h0 ht hm]
  split <;> rfl

theorem refAssign_out [Env α] {a : Addr} {i : Nat} {s : State α} {o : Obj α} (j : Kind) (x : α)
    (h : s.mem[a]? = some (some o)) (hk : IsNum o.kind) (hy : o.cells[i]? = none) :
    withVar (.ref a i) (fun lr => attachV (.num j x) >>= fun _ => assign lr (.num j x)) s = .ub .outOfBounds := by
  refine withVar_ub ?_
  rw [bind_eq (attach_none rfl _)]
  unfold assign
  rw [bind_eq (readSlot (v := .ref a i) (by simp))]
  refine withVar_ub ?_
  have g : ({ mem := s.mem, stk := s.stk ++ [.ref a i] ++ [.num j x] } : State α).mem[a]? = some (some o) := h
  refine (bind_eq (obj_eq g)).trans ?_
  have tail : ∀ k : Kind, (castV k (.num j x) >>= fun z => setRaw a i z)
      ({ mem := s.mem, stk := s.stk ++ [.ref a i] ++ [.num j x] } : State α) = .ub .outOfBounds := by
    intro k
    rw [bind_eq (castV_num _ _ _ _)]
    unfold setRaw
    rw [bind_eq (obj_eq g), hy]
    rfl
  obtain ⟨k1, k2⟩ := hk
  revert k1 k2
  cases o.kind <;> intro k1 k2 <;> first | exact absurd rfl k1 | exact absurd rfl k2 | exact tail _

/-- Assigning an element past the limit. -/
theorem setIndex_over [Env α] {P : Prop} {k : Nat} {a : Addr} {i : Nat} {s : State α} {o : Obj α} {xs : List α} (j : Kind)
    (x : α) (hk : s.stk[k]? = some (.arr a)) (h : s.mem[a]? = some (some o)) (hh : Has P o xs.length xs) (h0 : xs ≠ [])
    (ht : o.cells.length ≤ 2 ^ 30) (hl : xs.length ≤ limit o.kind) (hi : limit o.kind ≤ i) :
    setIndex (.slot k) i (.num j x) s = .ub .outOfBounds := by
  have hc0 : o.cells ≠ [] := by
    have := hh.cap
    have := List.length_pos_of_ne_nil h0
    exact List.ne_nil_of_length_pos (by omega)
  refine withVar_ub ?_
  have g : ({ mem := s.mem, stk := s.stk ++ [.num j x] } : State α).mem[a]? = some (some o) := h
  have gk : ({ mem := s.mem, stk := s.stk ++ [.num j x] } : State α).stk[k]? = some (.arr a) := slot_append hk
  have hx : index (.slot k) i ({ mem := s.mem, stk := s.stk ++ [.num j x] } : State α) =
      if o.kind = .char then .ub .outOfBounds
      else .ok (.ref a i) (upd { mem := s.mem, stk := s.stk ++ [.num j x] } a { o with size := i + 1, rc := o.rc + 1 }) := by
    unfold index
    rw [bind_eq (readSlot gk)]
    simp only
    unfold indexPlain
    rw [if_neg (show ¬ ((i : Int) < 0) by omega), bind_eq (readSlot gk), bind_eq (sizeV_arr g)]
    rw [if_pos (show ((i : Int) ≥ (o.size : Int)) by rw [hh.size]; omega)]
    have hr := heapResize_over (s := { mem := s.mem, stk := s.stk ++ [.num j x] }) (m := i + 1) g hc0 ht (by omega)
    rw [← resize_heap gk] at hr
    by_cases hch : o.kind = .char
    · rw [if_pos hch] at hr ⊢
      exact bind_ub hr
    · rw [if_neg hch] at hr ⊢
      refine (bind_eq hr).trans ?_
      refine (index_tail (s := upd { mem := s.mem, stk := s.stk ++ [.num j x] } a { o with size := i + 1 }) gk (upd_get g _)).trans ?_
      rw [upd_upd]
  by_cases hch : o.kind = .char
  · rw [if_pos hch] at hx
    exact bind_ub hx
  · rw [if_neg hch] at hx
    rw [bind_eq hx]
    refine refAssign_out (o := { o with size := i + 1, rc := o.rc + 1 }) j x (upd_get g _) hh.num ?_
    rw [limit_other hch] at hi
    exact List.getElem?_eq_none (by simp; omega)

/-- `unshift` of an array that is full. -/
theorem unshift_over [Env α] {P : Prop} {k : Nat} {a : Addr} {s : State α} {o : Obj α} {xs : List α} (j : Kind)
    (x : α) (hk : s.stk[k]? = some (.arr a)) (h : s.mem[a]? = some (some o)) (hh : Has P o xs.length xs)
    (ht : o.cells.length ≤ 2 ^ 30) (hl : xs.length = limit o.kind) :
    unshift (.slot k) (.num j x) s = .ub .outOfBounds := by
  have hc0 : o.cells ≠ [] := by
    have := hh.cap
    have := limit_ge o.kind
    exact List.ne_nil_of_length_pos (by omega)
  refine withVar_ub ?_
  have hk0 : ({ mem := s.mem, stk := s.stk ++ [.num j x] } : State α).stk[k]? = some (.arr a) := slot_append hk
  have g : ({ mem := s.mem, stk := s.stk ++ [.num j x] ++ [.num j x] } : State α).mem[a]? = some (some o) := h
  rw [bind_eq (readSlot hk0)]
  simp only [bind_eq (definedV_arr a _), Bool.not_true, Bool.false_eq_true, if_false]
  simp only [bind_eq (heapOf_arr a _)]
  rw [bind_eq (readSlot hk0)]
  simp only [bind_eq (heapOf_arr a _)]
  rw [bind_eq (attach_none rfl _)]
  unfold heapUnshift
  refine withVar_ub ?_
  refine (bind_eq (obj_eq g)).trans ?_
  have hr := heapResize_over (m := o.size + 1) g hc0 ht (by rw [hh.size]; omega)
  by_cases hch : o.kind = .char
  · rw [if_pos hch] at hr
    exact bind_ub hr
  · rw [if_neg hch] at hr
    refine (bind_eq hr).trans ?_
    refine (bind_eq (obj_eq (upd_get g _))).trans ?_
    simp only
    rw [if_neg hh.num.1, if_neg hh.num.2]
    unfold unshiftNums
    rw [limit_other hch] at hl
    rw [if_pos (by simp only [hh.size]; omega)]
    rfl

theorem fillRaw_out {a : Addr} (ys : List α) : ∀ (s : State α) (o : Obj α) (i : Nat), s.mem[a]? = some (some o) →
    (∀ c ∈ o.cells, ∃ y, c = Cell.raw y) → i ≤ o.cells.length → o.cells.length < i + ys.length →
    fillRaw a i ys s = .ub .outOfBounds := by
  induction ys with
  | nil => intro s o i _ _ h1 h2; simp at h2; omega
  | cons y ys ih =>
    intro s o i h hr h1 h2
    unfold fillRaw
    cases hc : o.cells[i]? with
    | none =>
      refine bind_ub ?_
      unfold setRaw
      rw [bind_eq (obj_eq h), hc]
      rfl
    | some c =>
      have hi := (List.getElem?_eq_some_iff.1 hc).1
      obtain ⟨z, hz⟩ := hr c (List.mem_of_getElem? hc)
      rw [bind_eq (setRaw_run h (hc.trans (by rw [hz])) y)]
      exact ih _ _ (i + 1) (upd_get h _) (raw_of_set hr _ _) (by simp; omega) (by simp at h2 ⊢; omega)

/-- `append` past the limit. -/
theorem append_over [Env α] {P : Prop} {k : Nat} {a : Addr} {s : State α} {o : Obj α} {xs ys : List α}
    (hk : s.stk[k]? = some (.arr a)) (h : s.mem[a]? = some (some o)) (hh : Has P o xs.length xs) (h0 : xs ≠ [])
    (ht : o.cells.length ≤ 2 ^ 30) (hl : limit o.kind < xs.length + ys.length) :
    append (.slot k) o.kind ys s = .ub .outOfBounds := by
  have hc0 : o.cells ≠ [] := by
    have := hh.cap
    have := List.length_pos_of_ne_nil h0
    exact List.ne_nil_of_length_pos (by omega)
  unfold append
  rw [bind_eq (array_arr hk), bind_eq (readSlot hk), bind_eq (heapOf_arr a s)]
  show heapAppend a o.kind ys s = _
  unfold heapAppend
  rw [bind_eq (obj_eq h)]
  have hr := heapResize_over (m := o.size + ys.length) h hc0 ht (by rw [hh.size]; exact hl)
  by_cases hch : o.kind = .char
  · rw [if_pos hch] at hr
    exact bind_ub hr
  · rw [if_neg hch] at hr
    rw [bind_eq hr, if_pos (.inl rfl), hh.size]
    rw [limit_other hch] at hl
    exact fillRaw_out ys _ _ _ (upd_get h _) hh.raw hh.cap (by simp only; omega)

/-- Making an array of more elements: an assertion fails. -/
theorem newHeap_over [Env α] {m : Nat} {k : Option Kind} {s : State α} (hm : limit (k.getD .var) < m) (hi : m < 2 ^ 31) :
    (newHeap m k : M α Addr) s = .abort := by
  obtain ⟨c, hc, -, hneg⟩ := Alloc.allocSize_over _ (need_over hm)
  have h1 := hneg (by split <;> omega)
  unfold newHeap resizeObj
  simp only [hc, Outcome.bind_ok]
  unfold growCells
  rw [if_pos (by rfl), if_pos h1]
  rfl

end Libube.Mem

import Verif.Lemmas.MemProg

/-! # Memory management (C45, C46) -/

namespace Libube.MemProps

open Mem MemSpec

variable {α : Type}

/-- An environment for examples: numbers are integers, strings are not numbers, keys are compared as
    characters or integers. -/
@[reducible] def intEnv : Env Int where
  conv _ _ x := x
  nul := 0
  parse _ _ := none
  less mem v w := match v, w with
    | .num _ x, .num _ y => x < y
    | .arr a, .arr b =>
      match mem[a]?, mem[b]? with
      | some (some o), some (some p) =>
        decide ((o.cells.take o.size).map (fun c => match c with | .raw (some x) => x | _ => 0) <
          (p.cells.take p.size).map (fun c => match c with | .raw (some x) => x | _ => 0))
      | _, _ => false
    | _, _ => false
  differ mem v w := match v, w with
    | .num _ x, .num _ y => x != y
    | .arr a, .arr b =>
      match mem[a]?, mem[b]? with
      | some (some o), some (some p) => o.cells.take o.size != p.cells.take p.size
      | _, _ => true
    | _, _ => true

attribute [local instance] intEnv

/-- The memory is safe: what is referred to is allocated, and no array has fewer counts than there are
    variables and elements that refer to it. -/
theorem no_premature_free [Env α] {s : State α} (h : Reach s) (a : Addr) (ha : Referred s a) : Allocated s a := by
  obtain ⟨own, hi⟩ := reach_inv h
  rw [referred_iff] at ha
  obtain ⟨o, ho, -⟩ := InvM.alive hi (a := a) (by
    rcases ha with ha | ha
    · exact .inr (List.mem_append_left _ ha)
    · exact .inl ha)
  exact ⟨o, ho⟩

/-- The statements of a program reach what `exec` computes. -/
theorem reach_exec [Env α] (sts : List (Stmt α)) {s s' : State α} (h : Reach s)
    (he : exec sts s = .ok () s') : Reach s' := by
  induction sts generalizing s with
  | nil => cases he; exact h
  | cons st sts ih =>
    unfold exec at he
    cases hr : run st s with
    | ok u s1 => rw [hr] at he; exact ih (h.ok hr) he
    | thrown e s1 => rw [hr] at he; exact ih (h.thrown hr) he
    | ub u => rw [hr] at he; cases he
    | abort => rw [hr] at he; cases he
    | diverge => rw [hr] at he; cases he

/-- `x = "A"; y = x; z.push(y); x = nil; ` : the string is still referred to. -/
def prog45 : List (Stmt Int) :=
  [.decl (.str [65]), .decl (.name 0), .decl .nil, .push 2 (.name 1), .assign 0 .nil, .leave]

/-- What a program leaves. -/
def final (sts : List (Stmt Int)) : State Int :=
  match exec sts ⟨[], []⟩ with
  | .ok _ s => s
  | _ => ⟨[], []⟩

theorem prog45_ok : exec prog45 ⟨[], []⟩ = .ok () (final prog45) := by decide +kernel

example : Reach (final prog45) ∧ Referred (final prog45) 0 :=
  ⟨reach_exec prog45 .start prog45_ok, .inl ⟨.arr 0, by decide +kernel, .inl rfl⟩⟩

/-- When all variables have gone out of scope, what is still allocated hangs on a cycle; for programs
    without `unshift` and without vars that refer to themselves. -/
theorem no_leak_partial [Env α] {s : State α} (h : ReachCareful s) (hs : s.stk = []) (a : Addr)
    (ha : Allocated s a) : ∃ c, OnCycle s c ∧ Relation.ReflTransGen (Points s) c a := by
  have hi := careful_inv h
  have hi' : InvM s.mem [] := by
    have : Inv s [] = InvM s.mem (stkPtrs s.stk ++ []) := rfl
    rw [this, hs] at hi
    exact hi
  refine cycle_of_pred (P := Allocated s) (N := s.mem.length) ?_ ?_ a ha
  · rintro b ⟨o, ho⟩
    exact (List.getElem?_eq_some_iff.1 ho).1
  · rintro b ⟨o, ho⟩
    have h1 := hi'.exact b
    have h2 := hi'.live b o ho
    have h3 : 0 < (cellPtrs s.mem).count b := by
      unfold rcOf at h1
      rw [ho] at h1
      simp only [List.count_nil] at h1
      omega
    obtain ⟨c, hc⟩ := (points_iff s b).2 (List.count_pos_iff.1 h3)
    have hc' := hc
    obtain ⟨oc, hoc, -⟩ := hc'
    exact ⟨c, ⟨oc, hoc⟩, hc⟩

/-- In particular nothing is left of data without cycles. -/
theorem no_leak_acyclic_partial [Env α] {s : State α} (h : ReachCareful s) (hs : s.stk = [])
    (hc : ∀ c, ¬ OnCycle s c) (a : Addr) : ¬ Allocated s a := fun ha => by
  obtain ⟨c, h1, -⟩ := no_leak_partial h hs a ha
  exact hc c h1

/-- At every moment of such a program an array is allocated if and only if some variable or element refers
    to it. -/
theorem allocated_iff_referred_partial [Env α] {s : State α} (h : ReachCareful s) (a : Addr) :
    Allocated s a ↔ Referred s a := by
  have hi := careful_inv h
  rw [referred_iff]
  constructor
  · rintro ⟨o, ho⟩
    have h1 := InvM.exact hi a
    have h2 := InvM.live hi a o ho
    unfold rcOf at h1
    rw [ho] at h1
    simp only [List.append_nil] at h1
    have : 0 < (cellPtrs s.mem).count a ∨ 0 < (stkPtrs s.stk).count a := by omega
    rcases this with h | h
    · exact .inr (List.count_pos_iff.1 h)
    · exact .inl (List.count_pos_iff.1 h)
  · intro ha
    obtain ⟨o, ho, -⟩ := InvM.alive hi (a := a) (by
      rcases ha with ha | ha
      · exact .inr (List.mem_append_left _ ha)
      · exact .inl ha)
    exact ⟨o, ho⟩

/-- A string in an array in an array; then the variable goes. -/
def prog46 : List (Stmt Int) :=
  [.decl .nil, .push 0 (.str [65]), .decl .nil, .push 1 (.name 0), .leave, .leave]

example : ReachCareful (final prog46) ∧ (final prog46).stk = [] ∧ (final prog46).mem = [none, none, none] := by
  refine ⟨?_, by decide +kernel, by decide +kernel⟩
  let at' (n : Nat) := final (prog46.take n)
  have step : ∀ n (st : Stmt Int), prog46[n]? = some st → (∀ m e, st ≠ .unshift m e) →
      run st (at' n) = .ok () (at' (n + 1)) → ReachCareful (at' n) → ReachCareful (at' (n + 1)) :=
    fun n st _ hu hr h => h.ok hu hr
  have h0 : ReachCareful (at' 0) := .start
  have h1 := step 0 _ rfl (by simp) (by decide +kernel) h0
  have h2 := step 1 _ rfl (by simp) (by decide +kernel) h1
  have h3 := step 2 _ rfl (by simp) (by decide +kernel) h2
  have h4 := step 3 _ rfl (by simp) (by decide +kernel) h3
  have h5 := step 4 _ rfl (by simp) (by decide +kernel) h4
  exact step 5 _ rfl (by simp) (by decide +kernel) h5

/-- C46 for all programs. -/
def NoLeak : Prop := ∀ (s : State Int), Reach s → s.stk = [] → ∀ a, Allocated s a →
  ∃ c, OnCycle s c ∧ Relation.ReflTransGen (Points s) c a

/-- `x.push("A"); x.push("B"); x.pop(); x.unshift("C");` and `x` goes out of scope. -/
def progLeak : List (Stmt Int) :=
  [.decl .nil, .push 0 (.str [65]), .push 0 (.str [66]), .eval (.pop 0), .unshift 0 (.str [67]), .leave]

/-- Unshifting onto an array of vars that was longer before loses the array of the var overwritten. -/
theorem unshift_leaks : ¬ NoLeak := by
  intro h
  have hx : exec progLeak ⟨[], []⟩ = .ok () (final progLeak) := by decide +kernel
  obtain ⟨c, hc, -⟩ := h (final progLeak) (reach_exec progLeak .start hx) (by decide +kernel) 2
    ⟨_, show (final progLeak).mem[2]? = some (some ⟨.char, 1, 1, [.raw (some 66), .raw (some 0), .raw none,
      .raw none, .raw none, .raw none, .raw none, .raw none]⟩) by decide +kernel⟩
  have hm : (final progLeak).mem = [none, none, some ⟨.char, 1, 1, [.raw (some 66), .raw (some 0), .raw none,
      .raw none, .raw none, .raw none, .raw none, .raw none]⟩, none] := by decide +kernel
  have hno : ∀ x y, ¬ Points (final progLeak) x y := by
    rintro x y hp
    have : y ∈ cellPtrs (final progLeak).mem := (points_iff _ _).1 ⟨x, hp⟩
    rw [hm] at this
    simp [cellPtrs, entryPtrs, Obj.ptrs, Cell.ptrs] at this
  unfold OnCycle at hc
  cases hc with
  | single h1 => exact hno _ _ h1
  | tail _ h1 => exact hno _ _ h1

/-- `x.push("A"); x[0] = x[0];` : the assignment throws, and the array is never freed. -/
def progSelf : List (Stmt Int) :=
  [.decl .nil, .push 0 (.str [65]), .setElem 0 0 (.elem 0 0), .leave]

/-- Assigning an element to itself also loses an array. -/
theorem self_assignment_leaks : ¬ NoLeak := by
  intro h
  have hx : exec progSelf ⟨[], []⟩ = .ok () (final progSelf) := by decide +kernel
  have hm : (final progSelf).mem = [none, some ⟨.var, 1, 1, [.var (.bad .var), .var .nil, .var .nil, .var .nil,
      .var .nil, .var .nil, .var .nil, .var .nil]⟩] := by decide +kernel
  obtain ⟨c, hc, -⟩ := h (final progSelf) (reach_exec progSelf .start hx) (by decide +kernel) 1
    ⟨_, by rw [hm]; rfl⟩
  have hno : ∀ x y, ¬ Points (final progSelf) x y := by
    rintro x y hp
    have : y ∈ cellPtrs (final progSelf).mem := (points_iff _ _).1 ⟨x, hp⟩
    rw [hm] at this
    simp [cellPtrs, entryPtrs, Obj.ptrs, Cell.ptrs, V.ptr] at this
  unfold OnCycle at hc
  cases hc with
  | single h1 => exact hno _ _ h1
  | tail _ h1 => exact hno _ _ h1

/-- "No program uses freed memory." -/
def NoUseAfterFree : Prop := ∀ (s : State Int), Reach s → ∀ st, run st s ≠ .ub .useAfterFree

/-- `x.push("A"); var r = x[0]; x = nil; r.resize(3);` -/
def progFreed : List (Stmt Int) :=
  [.decl .nil, .push 0 (.str [65]), .decl (.elem 0 0), .assign 0 .nil]

/-- Resizing by way of a reference that alone keeps its array alive uses memory after it is freed. -/
theorem freed_memory_used : ¬ NoUseAfterFree := by
  intro h
  have hx : exec progFreed ⟨[], []⟩ = .ok () (final progFreed) := by decide +kernel
  exact h _ (reach_exec progFreed .start hx) (.resize 1 3) (by decide +kernel)

#print axioms no_premature_free
#print axioms no_leak_partial
#print axioms no_leak_acyclic_partial
#print axioms allocated_iff_referred_partial
#print axioms unshift_leaks
#print axioms self_assignment_leaks
#print axioms freed_memory_used

end Libube.MemProps

import Verif.Lemmas.MemFunKeep
import Verif.Lemmas.MemCallKeep
import Verif.Spec.Mem
import Mathlib.Data.Fintype.Pigeonhole

/-! # Programs keep the counts -/

namespace Libube.Mem

open MemSpec

variable {α β γ : Type}

theorem moveVar_keep {lk : Bool} (n : Nat) : Keep lk (moveVar n : M α (V α)) [] (fun w => w.ptr.toList) := by
  refine Keep.of_ok (NT.bind (readLoc_nt _) fun v => NT.bind (writeLoc_nt _ _) fun _ => NT.pure _) fun s own w s' hi h => ?_
  unfold moveVar at h
  cases hv : s.stk[n]? with
  | none =>
    rw [bind_run, M.bind] at h
    simp [readLoc, hv] at h
  | some v =>
    have hr : readLoc (.slot n) s = .ok v s := by simp [readLoc, hv]
    rw [bind_eq hr] at h
    obtain ⟨s1, h1, h2, h3, -⟩ := writeLoc_ok (v := .nil) (own' := v.ptr.toList ++ own) hr (by simpa using hi) (fun a => by simp [V.ptr, Nat.add_comm])
    rw [bind_eq h1] at h
    cases h
    exact ⟨h2, h3⟩

theorem eval_keep [Env α] {lk : Bool} (e : Exp α) : Keep lk (eval e) [] (fun w => w.ptr.toList) := by
  induction e with
  | nil => exact Keep.pure _ fun _ => rfl
  | num k x => exact newNum_keep k x
  | str cs => exact newStr_keep cs
  | name n => exact (readLoc_ro _).bind_keep fun v => copyV_keep v
  | elem n i => exact index_keep _ _
  | «at» n i => exact (readLoc_ro _).bind_keep fun v => at'_keep v i
  | top n => exact (readLoc_ro _).bind_keep fun v => (sizeV_ro v).bind_keep fun _ => at'_keep v _
  | key n k ih => exact ih.bind fun v => mapIndex_keep _ v
  | atKey n k ih =>
    exact ih.bind fun v => Keep.withVar fun _ => (readLoc_ro _).bind_keep fun t => mapAt_keep t v
  | copy n => exact (readLoc_ro _).bind_keep fun v => copy_keep v
  | pop n => exact pop_keep _
  | shift n => exact shift_keep _
  | remove n i => exact remove_keep _ _
  | math F d n => exact applyNew_keep F d n
  | mathTo F d n m => exact applyTo_keep F d n m
  | text S d n => exact strNew_keep S.fn_keep d n
  | textTo S d n m => exact strTo_keep S.fn_keep d n m
  | arith F d n e ih => exact ih.bind fun w => arithNew_keep F d n w
  | arithTo F d n e m ih => exact ih.bind fun w => arithTo_keep F d n w m
  | move n => exact moveVar_keep n

/-- The last variable goes out of scope. -/
theorem leave_ok {s : State α} {own : List Addr} {v : V α} (hi : Inv s own) (hl : s.stk.getLast? = some v) :
    ∃ mem', detachV v { s with stk := s.stk.dropLast } = .ok () { mem := mem', stk := s.stk.dropLast } ∧
      Inv { mem := mem', stk := s.stk.dropLast } own := by
  have hs : s.stk = s.stk.dropLast ++ [v] := (List.dropLast_append_getLast? v hl).symm
  have hi1 : Inv { s with stk := s.stk.dropLast } (v.ptr.toList ++ own) := by
    refine InvM.congr hi fun a => ?_
    have h9 : (stkPtrs s.stk).count a = (stkPtrs s.stk.dropLast).count a + v.ptr.toList.count a := by
      have := congrArg (fun l => (stkPtrs l).count a) hs
      simp only [stkPtrs, List.flatMap_append, List.count_append, List.flatMap_cons, List.flatMap_nil,
        List.append_nil] at this ⊢
      exact this
    simp only [List.count_append]
    omega
  obtain ⟨mem', h1, h2, -⟩ := detachV_ok hi1
  exact ⟨mem', h1, h2⟩

/-- What is left after a statement. -/
def PostS (lk : Bool) (own : List Addr) : R α Unit → Prop
  | .ok _ s => ∃ L, (lk = false → L = []) ∧ Inv s (L ++ own)
  | .thrown e s => ∃ L, (lk = false → e ≠ selfRef → L = []) ∧ Inv s (L ++ own)
  | _ => True

theorem Keep.toPostS {lk : Bool} {m : M α Unit} (h : Keep lk m [] (fun _ => [])) {s : State α} {own : List Addr}
    (hi : Inv s own) : PostS lk own (m s) := by
  have := h s own hi
  cases hm : m s with
  | ok b s' =>
    rw [hm] at this
    obtain ⟨L, h1, h2, -⟩ := this
    exact ⟨L, h1, h2⟩
  | thrown e s' =>
    rw [hm] at this
    obtain ⟨L, h1, h2, -⟩ := this
    exact ⟨L, h1, h2⟩
  | ub u => trivial
  | abort => trivial
  | diverge => trivial

theorem run_post [Env α] {lk : Bool} (st : Stmt α) (hst : lk = false → ∀ n e, st ≠ .unshift n e) {s : State α}
    {own : List Addr} (hi : Inv s own) : PostS lk own (run st s) := by
  cases st with
  | decl e =>
    have := eval_keep (lk := lk) e s own hi
    show PostS lk own (M.bind (eval e) (fun v s => .ok () { s with stk := s.stk ++ [v] }) s)
    unfold M.bind
    cases he : eval e s with
    | ok v s' =>
      rw [he] at this
      obtain ⟨L, h1, h2, -⟩ := this
      refine ⟨L, h1, InvM.congr h2 fun a => ?_⟩
      simp [stkPtrs, List.count_append]
    | thrown e s' =>
      rw [he] at this
      obtain ⟨L, h1, h2, -⟩ := this
      exact ⟨L, h1, h2⟩
    | ub u => trivial
    | abort => trivial
    | diverge => trivial
  | leave =>
    simp only [run]
    cases hl : s.stk.getLast? with
    | none => trivial
    | some v =>
      obtain ⟨mem', h1, h2⟩ := leave_ok hi hl
      simp only [h1]
      exact ⟨[], fun _ => rfl, h2⟩
  | assign n e => exact Keep.toPostS ((eval_keep e).bind fun v => assign_keep _ v) hi
  | setElem n i e => exact Keep.toPostS ((eval_keep e).bind fun v => setIndex_keep _ _ v) hi
  | setAt n i e =>
    exact Keep.toPostS ((eval_keep e).bind fun v => (readLoc_ro _).bind_keep' (readLoc_nt _) fun t =>
      setAt_keep t _ v) hi
  | setKey n k e =>
    exact Keep.toPostS ((eval_keep e).bind fun v => Keep.withVar fun _ => (eval_keep _).bind fun r =>
      Keep.withVar fun lr => (attachV_keep v).bind fun _ => assign_keep lr v) hi
  | push n e => exact Keep.toPostS ((eval_keep e).bind fun v => push_keep _ v) hi
  | unshift n e =>
    cases lk with
    | true => exact Keep.toPostS ((eval_keep e).bind fun v => unshift_keep _ v) hi
    | false => exact absurd rfl (hst rfl n e)
  | insert n e p => exact Keep.toPostS ((eval_keep e).bind fun v => insert_keep _ v p) hi
  | resize n k => exact Keep.toPostS (resize_keep _ _) hi
  | array n => exact Keep.toPostS (array_keep _) hi
  | clear n => exact Keep.toPostS (assign_keep _ .nil) hi
  | presize n k => exact Keep.toPostS (presize_keep _ _) hi
  | append n k xs => exact Keep.toPostS (append_keep _ _ _) hi
  | appendVar n e =>
    exact Keep.toPostS ((eval_keep e).bind fun v => (readLoc_ro _).bind_keep' (readLoc_nt _) fun t =>
      (sizeV_ro t).bind_keep' (sizeV_nt t) fun m => insert_keep _ v m) hi
  | eval e => exact Keep.toPostS ((eval_keep e).bind fun v => detachV_keep v) hi
  | differ N d n m => exact Keep.toPostS ((differ_keep N d n m).bind fun _ => Keep.pure _ fun _ => rfl) hi
  | equal N d n m => exact Keep.toPostS ((equal_keep N d n m).bind fun _ => Keep.pure _ fun _ => rfl) hi
  | less N d n m => exact Keep.toPostS ((less_keep N d n m).bind fun _ => Keep.pure _ fun _ => rfl) hi
  | find N d n m => exact Keep.toPostS ((indexOf_keep N d n m).bind fun _ => Keep.pure _ fun _ => rfl) hi
  | print h p d n => exact Keep.toPostS ((print_keep p d n).bind fun _ => Keep.pure _ fun _ => rfl) hi
  | sort N d n =>
    have := ((readLoc_ro (.slot n)).bind_keep fun v => sortV_keep (lk := lk) N d v) s own hi
    have e : run (.sort N d n) s = M.bind (readLoc (.slot n) >>= fun v => sortV N d v) newVar s := by
      show M.bind (readLoc (.slot n)) (fun v => M.bind (sortV N d v) newVar) s = M.bind (M.bind (readLoc (.slot n)) fun v => sortV N d v) newVar s
      unfold M.bind
      cases readLoc (.slot n) s <;> rfl
    rw [e]
    unfold M.bind
    cases he : (readLoc (.slot n) >>= fun v => sortV N d v) s with
    | ok v s' =>
      rw [he] at this
      obtain ⟨L, h1, h2, -⟩ := this
      refine ⟨L, h1, InvM.congr h2 fun a => ?_⟩
      simp [stkPtrs, List.count_append]
    | thrown e s' =>
      rw [he] at this
      obtain ⟨L, h1, h2, -⟩ := this
      exact ⟨L, h1, h2⟩
    | ub u => trivial
    | abort => trivial
    | diverge => trivial

theorem inv_start : Inv (⟨[], []⟩ : State α) [] :=
  ⟨fun a => by simp [rcOf, cellPtrs, stkPtrs], fun a o h => by simp at h, fun a o h => by simp at h⟩

theorem reach_inv [Env α] {s : State α} (h : Reach s) : ∃ own, Inv s own := by
  induction h with
  | start => exact ⟨[], inv_start⟩
  | @ok _ _ st h hr ih =>
    obtain ⟨own, hi⟩ := ih
    have := run_post (lk := true) st (by simp) hi
    rw [hr] at this
    obtain ⟨L, -, h2⟩ := this
    exact ⟨_, h2⟩
  | @thrown _ _ st _ h hr ih =>
    obtain ⟨own, hi⟩ := ih
    have := run_post (lk := true) st (by simp) hi
    rw [hr] at this
    obtain ⟨L, -, h2⟩ := this
    exact ⟨_, h2⟩

theorem careful_inv [Env α] {s : State α} (h : ReachCareful s) : Inv s [] := by
  induction h with
  | start => exact inv_start
  | ok h hst hr ih =>
    have := run_post (lk := false) _ (fun _ => hst) ih
    rw [hr] at this
    obtain ⟨L, h1, h2⟩ := this
    rw [h1 rfl] at h2
    exact h2
  | thrown h hst he hr ih =>
    have := run_post (lk := false) _ (fun _ => hst) ih
    rw [hr] at this
    obtain ⟨L, h1, h2⟩ := this
    rw [h1 rfl he] at h2
    exact h2

theorem vTo_iff (v : V α) (a : Addr) : VTo v a ↔ a ∈ v.ptr.toList := by
  cases v <;> simp [VTo, V.ptr]
  · exact eq_comm
  · exact eq_comm

theorem cellTo_iff (c : Cell α) (a : Addr) : CellTo c a ↔ a ∈ c.ptrs := by
  cases c <;> simp [CellTo, Cell.ptrs, vTo_iff]

theorem points_iff (s : State α) (b : Addr) : (∃ a, Points s a b) ↔ b ∈ cellPtrs s.mem := by
  unfold cellPtrs Points
  rw [List.mem_flatMap]
  constructor
  · rintro ⟨a, o, ho, c, hc, hb⟩
    refine ⟨some o, List.mem_of_getElem? ho, ?_⟩
    exact List.mem_flatMap.2 ⟨c, hc, (cellTo_iff c b).1 hb⟩
  · rintro ⟨x, hx, hb⟩
    obtain ⟨a, ha⟩ := List.getElem?_of_mem hx
    cases x with
    | none => simp [entryPtrs] at hb
    | some o =>
      obtain ⟨c, hc, hb'⟩ := List.mem_flatMap.1 hb
      exact ⟨a, o, ha, c, hc, (cellTo_iff c b).2 hb'⟩

theorem referred_iff (s : State α) (a : Addr) :
    Referred s a ↔ a ∈ stkPtrs s.stk ∨ a ∈ cellPtrs s.mem := by
  unfold Referred
  rw [points_iff]
  unfold stkPtrs
  rw [List.mem_flatMap]
  simp only [vTo_iff]

/-- If everything in a finite set has a predecessor in it, everything is reachable from a cycle. -/
theorem cycle_of_pred {R : Nat → Nat → Prop} {P : Nat → Prop} {N : Nat} (hb : ∀ a, P a → a < N)
    (hp : ∀ a, P a → ∃ b, P b ∧ R b a) (a : Nat) (ha : P a) :
    ∃ c, Relation.TransGen R c c ∧ Relation.ReflTransGen R c a := by
  classical
  let f : {a // P a} → {a // P a} := fun x => ⟨(hp x.1 x.2).choose, (hp x.1 x.2).choose_spec.1⟩
  have hf : ∀ x, R (f x).1 x.1 := fun x => (hp x.1 x.2).choose_spec.2
  let g : Nat → {a // P a} := fun n => f^[n] ⟨a, ha⟩
  have hg : ∀ n, R (g (n + 1)).1 (g n).1 := by
    intro n
    have : g (n + 1) = f (g n) := Function.iterate_succ_apply' f n _
    rw [this]
    exact hf _
  have hback : ∀ n m, Relation.ReflTransGen R (g (n + m)).1 (g n).1 := by
    intro n m
    induction m with
    | zero => exact .refl
    | succ m ih => exact Relation.ReflTransGen.head (hg (n + m)) ih
  let h : Nat → Fin N := fun n => ⟨(g n).1, hb _ (g n).2⟩
  obtain ⟨i, j, hij, he⟩ := Finite.exists_ne_map_eq_of_infinite h
  have he' : (g i).1 = (g j).1 := congrArg Fin.val he
  have key : ∀ i j, i < j → (g i).1 = (g j).1 →
      ∃ c, Relation.TransGen R c c ∧ Relation.ReflTransGen R c a := by
    intro i j hlt he
    refine ⟨(g i).1, ?_, ?_⟩
    · obtain ⟨m, rfl⟩ : ∃ m, j = (i + m) + 1 := ⟨j - i - 1, by omega⟩
      have h1 := Relation.TransGen.head' (hg (i + m)) (hback i m)
      rw [← he] at h1
      exact h1
    · have := hback 0 i
      rw [Nat.zero_add] at this
      exact this
  rcases Nat.lt_or_gt_of_ne hij with h1 | h1
  · exact key i j h1 he'
  · exact key j i h1 he'.symm

end Libube.Mem

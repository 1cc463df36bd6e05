import Verif.Props.MemSort

/-! # Sorting a number (C172) -/

namespace Libube.MemProps

open Mem MemSpec OrderSpec

variable {α : Type}

attribute [local instance] intEnv

/-- C172 for a number in place of an array, itself or through a reference: a new array holds the number alone. -/
theorem sort_of_number [Env α] (N : Numbers α) {s : State α} (hr : Reach s) {m : Nat} {x : Val} (hx : HasValue N s m x) (hp : parts x = none) (h0 : x ≠ .nil)
    (n : Nat) : ∃ s', run (.sort N n m) s = .ok () s' ∧ Reach s' ∧ NewArray N s s' (.arr [x]) := by
  obtain ⟨own, hi⟩ := reach_inv hr
  obtain ⟨v, v', h1, h2, f3⟩ := hx
  obtain ⟨kd, c, rfl, hv⟩ : ∃ kd c, v' = .num kd c ∧ scalarVal N kd c = some x := by
    cases f3 with
    | nil => exact absurd rfl h0
    | @num kd c _ h => exact ⟨kd, c, rfl, h⟩
    | @nums _ _ k' _ _ _ _ h => cases k' <;> simp [arrayVal] at h <;> subst h <;> simp [parts] at hp
    | _ => simp [parts] at hp
  have hd := standsFor_deno h2 f3.plain
  have hv0 : ∀ b ∈ v.ptr.toList, b ∈ stkPtrs s.stk := fun b hb => mem_stkPtrs h1 hb
  have hlt : ∀ b, v.ptr = some b → b < s.mem.length := fun b hb => by
    obtain ⟨o, ho⟩ := hi.stk_live (hv0 b (by simp [hb]))
    exact (List.getElem?_eq_some_iff.1 ho).1
  obtain ⟨c0, e0, g0⟩ := presize_new (mem := s.mem) (stk := s.stk) (m := 1) (by omega)
  have i0 : Mem.Inv ⟨s.mem, s.stk ++ [.nil]⟩ own := Inv.push (s := s) (v := .nil) hi
  have i1 : Mem.Inv ⟨s.mem ++ [some ⟨.var, 0, 1, c0⟩], s.stk ++ [.arr s.mem.length]⟩ own := by
    simpa using (presize_keep (lk := false) (.slot s.stk.length) (1 : Nat)).inv (own := own) (by simpa using i0) e0
  have hva : VA ⟨s.mem ++ [some ⟨.var, 0, 1, c0⟩], s.stk ++ [.arr s.mem.length]⟩ own s.stk.length s.mem.length [] c0 :=
    ⟨i1, by simp, ⟨1, by simp⟩, by simp, g0⟩
  have hk : Oth (· = s.mem.length) s.mem (s.mem ++ [some ⟨.var, 0, 1, c0⟩]) := by
    refine ⟨by simp, fun b o' _ hb h => ⟨o', ?_, rfl, rfl, rfl⟩⟩
    rwa [List.getElem?_append_left hb] at h
  have hav : Alive v (s.mem ++ [some ⟨.var, 0, 1, c0⟩]) := fun b hb => i1.stk_live (by
    rw [stkPtrs_append]
    exact List.mem_append_left _ (hv0 b (by simp [hb])))
  have hd1 : Deno (s.mem ++ [some ⟨.var, 0, 1, c0⟩]) v (.num kd c) :=
    hd.kept hk (fun b j e => Nat.ne_of_lt (hlt b (by rw [e]; rfl))) (fun b hb => hav b (by simpa using hb))
  have hcnt := inv_counted i1
  have e1 := at_num_bump (stk := s.stk ++ [.arr s.mem.length]) hcnt hav hd1
  have hn : Alive (.num kd c : V α) (s.mem ++ [some ⟨.var, 0, 1, c0⟩]) := by simp [Alive, V.ptr]
  have hres := va_holds (N := N) hva (le_refl s.mem.length) hk (ys := []) ⟨rfl, by simp⟩
  have hnum : HoldsVal N (s.mem ++ [some ⟨.var, 0, 1, c0⟩]) (.num kd c) x := .num hv
  have e2 : withVar (.num kd c : V α) (fun l => do binaryV N n (← readLoc (.slot s.stk.length)) (← readLoc l))
      ⟨s.mem ++ [some ⟨.var, 0, 1, c0⟩], s.stk ++ [.arr s.mem.length]⟩ = .ok 0 ⟨s.mem ++ [some ⟨.var, 0, 1, c0⟩], s.stk ++ [.arr s.mem.length]⟩ := by
    refine (with_lift (o := .ok 0) (v := .num kd c) hcnt hn ?_).trans rfl
    have r1 : readLoc (.slot s.stk.length) ⟨bump (.num kd c) (s.mem ++ [some ⟨.var, 0, 1, c0⟩]), s.stk ++ [.arr s.mem.length] ++ [.num kd c]⟩ =
        .ok (.arr s.mem.length) ⟨bump (.num kd c) (s.mem ++ [some ⟨.var, 0, 1, c0⟩]), s.stk ++ [.arr s.mem.length] ++ [.num kd c]⟩ :=
      readSlot (slot_append hva.slot)
    have r2 := readTemp (bump (.num kd c) (s.mem ++ [some ⟨.var, 0, 1, c0⟩])) (s.stk ++ [.arr s.mem.length]) (.num kd c : V α)
    rw [bind_eq r1, bind_eq r2]
    have hb := bump_holds (.num kd c) hres
    refine (binaryV_lift N n (bump_counted _ hcnt) (v := .arr s.mem.length) hb.alive (.self (by simp [V.IsRef])) hb (bump_alive _ hn) (.self (by simp [V.IsRef])) (bump_holds _ hnum)).trans ?_
    rfl
  obtain ⟨m1, cells1, q1, q2, q3⟩ := insert_va (p := 0) (v := .num kd c) (w := .num kd c) (by simpa [V.ptr] using hva) (by simp) (by simp) (.self (by simp [V.IsRef])) (by simp)
  have hz : sizeV v ⟨s.mem, s.stk ++ [.nil]⟩ = .ok 1 ⟨s.mem, s.stk ++ [.nil]⟩ := (num_shape (s := ⟨s.mem, s.stk ++ [.nil]⟩) hd).2.2
  have hz1 := (num_shape (s := ⟨s.mem ++ [some ⟨.var, 0, 1, c0⟩], s.stk ++ [.arr s.mem.length]⟩) hd1).2.2
  have hq : sortFrom N n v (.slot s.stk.length) 0 1 ⟨s.mem ++ [some ⟨.var, 0, 1, c0⟩], s.stk ++ [.arr s.mem.length]⟩ =
      .ok () ⟨m1, s.stk ++ [.arr s.mem.length]⟩ := by
    rw [sortFrom, bind_eq hz1, if_pos (by omega), bind_eq e1]
    refine (bind_eq e2).trans ?_
    rw [bind_eq e1]
    exact (bind_eq q1).trans rfl
  obtain ⟨m2, f2, i2, k2, l2⟩ := attach_tot (v := .arr s.mem.length) q2.inv (fun b hb => q2.inv.stk_live (by
    simp [V.ptr] at hb; subst hb; exact q2.stk))
  obtain ⟨m3, f3', i3, k3⟩ := withVar_tot (s := s) (v := .nil) (b := (.arr s.mem.length : V α)) (w := .arr s.mem.length) (m1 := m2) (f := fun r => do
      let m ← sizeV v
      presize r m
      sortFrom N n v r 0 m
      copyV (← readLoc r)) (by
    refine (bind_eq hz).trans ((bind_eq e0).trans ((bind_eq hq).trans ((bind_eq (readSlot q2.slot)).trans ?_)))
    unfold copyV
    exact (bind_eq f2).trans rfl) i2
  have i4 : Mem.Inv ⟨m3, s.stk ++ [.arr s.mem.length]⟩ own := Inv.push (s := ⟨m3, s.stk⟩) (v := .arr s.mem.length) i3
  have hs4 : (⟨m3, s.stk ++ [.arr s.mem.length]⟩ : State α).stk[s.stk.length]? = some (.arr s.mem.length) := by simp
  have h4 : VA ⟨m3, s.stk ++ [.arr s.mem.length]⟩ own s.stk.length s.mem.length [.num kd c] cells1 :=
    ⟨i4, hs4, q2.is.kept (k2.trans k3) id (i4.stk_live (mem_stkPtrs hs4 (by simp [V.ptr]))), q2.elem, q2.clean⟩
  have k4 : Oth (· = s.mem.length) s.mem m3 := ((hk.trans q3).trans k2.oth).trans k3.oth
  have hall : AllHold N s.mem [.num kd c] [x] := by
    refine ⟨rfl, fun i w y hw hy => ?_⟩
    cases i with
    | zero => cases hw; cases hy; exact .num hv
    | succ i => simp at hw
  have hrun : run (.sort N n m) s = .ok () ⟨m3, s.stk ++ [.arr s.mem.length]⟩ := by
    show declSort N n m s = _
    unfold declSort
    rw [bind_eq (readSlot h1)]
    exact (bind_eq f3').trans rfl
  exact ⟨_, hrun, hr.ok (st := .sort N n m) hrun, s.mem.length, by simp, rfl, va_holds h4 (le_refl _) k4 hall, others_same k4, fun k z hz => values_kept k4 i4 hz⟩

/-- `x = 3;` -/
def progSortNumber : List (Stmt Int) := [.decl (.num .int 3)]

/-- The hypotheses of `sort_of_number` are met by `3`. -/
example : Reach (final progSortNumber) ∧ HasValue intNumbers (final progSortNumber) 0 (.int 3) ∧ parts (.int 3) = none ∧ Val.int 3 ≠ .nil :=
  ⟨reach_exec progSortNumber .start (by decide +kernel), ⟨.num .int 3, .num .int 3, by decide +kernel, .inl ⟨rfl, by simp⟩, .num rfl⟩, rfl, by simp⟩

#print axioms sort_of_number

end Libube.MemProps

import Verif.Props.MemUnary
import Verif.Lemmas.MemArith

/-! # Positions outside an array (C160) -/

namespace Libube.MemProps

open Mem MemSpec

variable {α : Type}

/-- What `x.size()` tells a user about variable `n`: the number of elements of an array, also of one of vars or a map, 1 for a number, 0 for nil. -/
inductive SizeIs (s : State α) (n : Nat) : Nat → Prop where
  | arr {a : Addr} {o : Obj α} (h1 : s.stk[n]? = some (.arr a)) (h2 : s.mem[a]? = some (some o)) : SizeIs s n o.size
  | num {k : Kind} {x : α} (h : s.stk[n]? = some (.num k x)) : SizeIs s n 1
  | nil (h : s.stk[n]? = some .nil) : SizeIs s n 0

theorem sizeIs_run {s : State α} {n k : Nat} (h : SizeIs s n k) : ∃ v, s.stk[n]? = some v ∧ sizeV v s = .ok k s := by
  cases h with
  | arr h1 h2 => exact ⟨_, h1, sizeV_arr h2⟩
  | num h => exact ⟨_, h, rfl⟩
  | nil h => exact ⟨_, h, rfl⟩

/-- C160: `x.remove(i)` with `i` not below the size throws, and nothing changes. -/
theorem remove_outside [Env α] {s : State α} {n k i : Nat} (hk : SizeIs s n k) (hi : k ≤ i) : run (.eval (.remove n i)) s = .thrown (.rangeError "remove(): index too large") s := by
  obtain ⟨v, hv, e1⟩ := sizeIs_run hk
  have : remove (.slot n) i s = .thrown (.rangeError "remove(): index too large") s := by
    unfold remove
    refine (bind_eq (readSlot hv)).trans ?_
    refine (bind_eq e1).trans ?_
    rw [if_pos (by omega)]
    rfl
  exact bind_thr this

/-- What is given to `insert`: a number, nil, or any variable. -/
def InsertArg (s : State α) (e : Exp α) : Prop := e = .nil ∨ (∃ k x, Scalar k ∧ e = .num k x) ∨ ∃ m v, s.stk[m]? = some v ∧ e = .name m

/-- C160: `x.insert(y, p)` with `p` above the size throws, and nothing changes; `y` may be `x`. -/
theorem insert_outside [Env α] {s : State α} (hr : Reach s) {n k p : Nat} (hk : SizeIs s n k) (hp : k < p) {e : Exp α} (he : InsertArg s e) :
    ∃ s', run (.insert n e p) s = .thrown (.rangeError "insert(): index too large") s' ∧ s'.stk = s.stk ∧ AllSame s s' := by
  obtain ⟨own, hi⟩ := reach_inv hr
  obtain ⟨m0, w, e0, i0, k0, l0⟩ : ∃ m0 w, eval e s = .ok w ⟨m0, s.stk⟩ ∧ Inv ⟨m0, s.stk⟩ (w.ptr.toList ++ own) ∧ Kept s.mem m0 ∧ ∀ b, Live s.mem b → Live m0 b := by
    rcases he with rfl | ⟨k, x, hk, rfl⟩ | ⟨m, v, hv, rfl⟩
    · exact ⟨s.mem, .nil, rfl, by simpa [V.ptr] using hi, Oth.refl _ _, fun _ => id⟩
    · exact ⟨s.mem, .num k x, plain_eval (s := s) (.num hk), by simpa [V.ptr] using hi, Oth.refl _ _, fun _ => id⟩
    · obtain ⟨m0, e0, i0, k0, l0⟩ := attach_tot hi (v := v) (fun b hb => hi.stk_live (mem_stkPtrs hv hb))
      refine ⟨m0, v, ?_, i0, k0, l0⟩
      show (readLoc (.slot m) >>= fun v => copyV v) s = _
      rw [bind_eq (readSlot hv)]
      unfold copyV
      exact (bind_eq e0).trans rfl
  have i1 : Inv ⟨m0, s.stk ++ [w]⟩ own := Inv.push (s := ⟨m0, s.stk⟩) i0
  obtain ⟨v, hv, e1⟩ : ∃ v, (s.stk ++ [w])[n]? = some v ∧ sizeV v ⟨m0, s.stk ++ [w]⟩ = .ok k ⟨m0, s.stk ++ [w]⟩ := by
    cases hk with
    | @arr a o h1 h2 =>
      obtain ⟨rc, h3⟩ : Is m0 a o.kind o.size o.cells := Is.kept ⟨o.rc, h2⟩ k0 id (l0 a ⟨_, h2⟩)
      exact ⟨_, get_appendL h1 _, sizeV_deno (s := ⟨m0, s.stk ++ [w]⟩) (.self id) ⟨rc, h3⟩⟩
    | num h => exact ⟨_, get_appendL h _, rfl⟩
    | nil h => exact ⟨_, get_appendL h _, rfl⟩
  obtain ⟨m1, e2, i2, k2⟩ := detach_tot (v := w) (own := own) (s := ⟨m0, s.stk⟩) (Inv.pop i1)
  refine ⟨⟨m1, s.stk⟩, ?_, rfl, all_same (Oth.trans k0 k2)⟩
  show (eval e >>= fun v => Mem.insert (.slot n) v p) s = _
  refine (bind_eq e0).trans ?_
  unfold Mem.insert
  refine withVar_thr (s := ⟨m0, s.stk⟩) (w := w) (mem1 := m0) ?_ rfl e2
  refine (bind_eq (readSlot (s := ⟨m0, s.stk ++ [w]⟩) hv)).trans ?_
  refine (bind_eq e1).trans ?_
  rw [if_pos (by omega)]
  rfl

/-! ## Cases -/

section

attribute [local instance] intEnv

/-- `x = [1, 2]; y = [[1, 2]]` -/
def progR : List (Stmt Int) := [.decl (.num .int 1), .push 0 (.num .int 2), .decl .nil, .push 1 (.name 0)]

theorem progR_0 : SizeIs (final progR) 0 2 := .arr (a := 0) (o := ⟨.int, 2, 2, .raw (some 1) :: .raw (some 2) :: List.replicate 6 (.raw none)⟩) (by decide +kernel) (by decide +kernel)

theorem progR_1 : SizeIs (final progR) 1 1 := .arr (a := 1) (o := ⟨.var, 1, 1, .var (.arr 0) :: List.replicate 7 (.var .nil)⟩) (by decide +kernel) (by decide +kernel)

/-- Hypotheses of `remove_outside`, at the size. -/
example : run (.eval (.remove 0 2)) (final progR) = .thrown (.rangeError "remove(): index too large") (final progR) := remove_outside progR_0 (by decide)

/-- Hypotheses of `insert_outside`: `y.insert(x, 2)` and `x.insert(x, 3)`. -/
example : ∃ s', run (.insert 1 (.name 0) 2) (final progR) = .thrown (.rangeError "insert(): index too large") s' ∧ AllSame (final progR) s' := by
  obtain ⟨s', h1, -, h2⟩ := insert_outside (reach_exec progR .start (by decide +kernel)) progR_1 (p := 2) (by decide) (e := .name 0) (.inr (.inr ⟨0, .arr 0, by decide +kernel, rfl⟩))
  exact ⟨s', h1, h2⟩

example : ∃ s', run (.insert 0 (.name 0) 3) (final progR) = .thrown (.rangeError "insert(): index too large") s' ∧ AllSame (final progR) s' := by
  obtain ⟨s', h1, -, h2⟩ := insert_outside (reach_exec progR .start (by decide +kernel)) progR_0 (p := 3) (by decide) (e := .name 0) (.inr (.inr ⟨0, .arr 0, by decide +kernel, rfl⟩))
  exact ⟨s', h1, h2⟩

end

end Libube.MemProps

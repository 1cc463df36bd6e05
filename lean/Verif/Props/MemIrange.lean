import Verif.Model.MemIrange
import Verif.Spec.MemIrange
import Verif.Props.MemNil
import Verif.Props.MemArith

/-! # Calls of `irange` and `range` (C165) -/

namespace Libube.MemProps

open Mem MemSpec

variable {α : Type}

/-- The result so far: as `Shown`, and the array is at `N` or later. -/
def ShownFrom (N : Nat) (s : State α) (n : Nat) (k : Kind) (zs : List α) : Prop :=
  Shown s n k zs ∧ ∀ a, s.stk[n]? = some (.arr a) → N ≤ a

/-- The parameters and the result. -/
def Frame (base : List (V α)) (k j : Kind) (x h y : α) (r : V α) : List (V α) := base ++ [.num k x, .num k h, .num j y, r]

theorem frame_get (base : List (V α)) (k j : Kind) (x h y : α) (r : V α) :
    (Frame base k j x h y r)[base.length]? = some (.num k x) ∧ (Frame base k j x h y r)[base.length + 1]? = some (.num k h) ∧
      (Frame base k j x h y r)[base.length + 2]? = some (.num j y) ∧ (Frame base k j x h y r)[base.length + 3]? = some r := by
  unfold Frame
  refine ⟨?_, ?_, ?_, ?_⟩ <;> rw [List.getElem?_append_right (by omega)] <;> simp

theorem frame_set (base : List (V α)) (k j : Kind) (x h y z : α) (r t : V α) :
    (Frame base k j x h y r).set base.length (.num k z) = Frame base k j z h y r ∧ (Frame base k j x h y r).set (base.length + 3) t = Frame base k j x h y t := by
  unfold Frame
  constructor <;> rw [List.set_append_right _ _ (by omega)] <;> simp

theorem lessNum_num [Env α] (lt : α → α → Bool) {k : Kind} (hk : Scalar k) (x y : α) (s : State α) : lessNum lt (.num k x) (.num k y) s = .ok (lt x y) s := by
  unfold lessNum
  refine (bind_eq (typeV_num k x s)).trans ?_
  refine (bind_eq (typeV_num k y s)).trans ?_
  simp only [if_true]
  have h : ∀ z : α, getV k (.num k z) s = .ok z s := fun z => by
    unfold getV
    have : derefV (.num k z : V α) s = .ok (.num k z) s := rfl
    refine (bind_eq this).trans ?_
    simp only [if_true]
    rfl
  exact (bind_eq (h x)).trans ((bind_eq (h y)).trans rfl)

/-- `x += y` for variables that are numbers. -/
theorem plain_add [Env α] {F : Bin α} (hF : F.op = .add) {s : State α} {p q : Nat} {k j : Kind} {x y : α} (hk : Scalar k) (hp : s.stk[p]? = some (.num k x)) (hq : s.stk[q]? = some (.num j y))
    (ho : F.ok k x (Env.conv j k y) = true) :
    run (.eval (.arithTo F 1 p (.name q) p)) s = .ok () { s with stk := s.stk.set p (.num k (F.f k x (Env.conv j k y))) } := by
  have hlt := (List.getElem?_eq_some_iff.1 hp).1
  have ht : F.op.takes k = true := by
    rw [hF]
    obtain ⟨⟨h1, h2⟩, -⟩ := hk
    cases k <;> simp_all [ArithOp.takes]
  have e1 : eval (.name q) s = .ok (.num j y) s := plain_eval (.name hq)
  have e2 : eval (.arithTo F 1 p (.name q) p) s = .ok (.num k (F.f k x (Env.conv j k y))) { s with stk := s.stk.set p (.num k (F.f k x (Env.conv j k y))) } := by
    refine (bind_eq e1).trans ?_
    unfold arithTo
    refine withVar_run' (w := .num j y) (mem1 := s.mem) (stk1 := s.stk.set p (.num k (F.f k x (Env.conv j k y)))) ?_ (by simp) (detach_none rfl _)
    refine (bind_eq (readSlot (s := { s with stk := s.stk ++ [.num j y] }) (slot_append hp))).trans ?_
    have e3 : arith F 1 (.num k x) (.num j y) (.slot p) { s with stk := s.stk ++ [.num j y] } = .ok () ⟨s.mem, s.stk.set p (.num k (F.f k x (Env.conv j k y))) ++ [.num j y]⟩ := by
      rw [arith_num (.self id) hk.2 (.self id) ht ho]
      unfold Bin.store
      rw [if_neg (by rw [hF]; decide)]
      unfold setPtr
      refine (bind_eq (readSlot (s := { s with stk := s.stk ++ [.num j y] }) (slot_append hp))).trans ?_
      simp only
      unfold setPlain
      refine (bind_eq (readSlot (s := { s with stk := s.stk ++ [.num j y] }) (slot_append hp))).trans ?_
      simp only [and_self, if_true]
      unfold writeLoc
      simp only [List.length_append, List.length_singleton]
      rw [if_pos (by omega), set_append hp]
    refine (bind_eq e3).trans ?_
    refine (bind_eq (readSlot (s := ⟨s.mem, s.stk.set p (.num k (F.f k x (Env.conv j k y))) ++ [.num j y]⟩) (slot_append (List.getElem?_set_self hlt)))).trans ?_
    unfold copyV
    exact (bind_eq (attach_none rfl _)).trans rfl
  refine (bind_eq e2).trans ?_
  exact detach_none rfl _

/-- One push of the parameter. -/
theorem push_param [Env α] (hc : ConvSame α) {s : State α} (hr : Reach s) {N : Nat} (hN : N ≤ s.mem.length) {base : List (V α)} {k j : Kind} {x h y : α} {r : V α} (hk : Scalar k)
    (hs : s.stk = Frame base k j x h y r) {zs : List α} (hz : ShownFrom N s (base.length + 3) k zs) (hf : Fits zs) :
    ∃ mem' r', run (.push (base.length + 3) (.name base.length)) s = .ok () ⟨mem', Frame base k j x h y r'⟩ ∧ ShownFrom N ⟨mem', Frame base k j x h y r'⟩ (base.length + 3) k (zs ++ [x]) ∧
      N ≤ mem'.length ∧ ∀ b, b < N → mem'[b]? = s.mem[b]? := by
  obtain ⟨g0, -, -, g3⟩ := frame_get base k j x h y r
  rw [← hs] at g0 g3
  have e0 : run (.push (base.length + 3) (.name base.length)) s = run (.push (base.length + 3) (.num k x)) s := by
    show (eval (.name base.length) >>= fun v => push (.slot (base.length + 3)) v) s = (eval (.num k x) >>= fun v => push (.slot (base.length + 3)) v) s
    rw [bind_eq (plain_eval (.name g0)), bind_eq (newNum_scalar hk x s)]
  rw [e0]
  match zs, hz with
  | [], hz =>
    have h1 := push_nil_number hz.1 hk x
    rw [hs, (frame_set base k j x h y x r (.num k x)).2] at h1
    obtain ⟨-, -, -, g⟩ := frame_get base k j x h y (.num k x)
    exact ⟨_, _, h1, ⟨g, fun a ha => by rw [g] at ha; cases ha⟩, hN, fun _ _ => rfl⟩
  | [z], hz =>
    obtain ⟨o, h1, h2⟩ := push_second_new hc hk hz.1 x
    rw [hs, (frame_set base k j x h y x r (.arr s.mem.length)).2] at h1
    obtain ⟨-, -, -, g⟩ := frame_get base k j x h y (.arr s.mem.length)
    refine ⟨_, _, h1, ⟨⟨s.mem.length, o, g, by simp, h2⟩, fun a ha => ?_⟩, by simp; omega, fun b hb => List.getElem?_append_left (by omega)⟩
    rw [g] at ha
    cases ha
    exact hN
  | z :: z' :: zs, hz =>
    obtain ⟨⟨mem', stk'⟩, h1, h2, h3, h4⟩ := push_number_partial hr x hk.1 hk (xs := z :: z' :: zs) hz.1 hf
    rw [hc _ _ hk.2] at h2
    simp only at h3
    subst h3
    obtain ⟨a, o, ha, ho, -⟩ := id hz.1
    have hle := hz.2 a ha
    have hlen : s.mem.length ≤ mem'.length := by
      obtain ⟨a', o', ha', ho', -⟩ := h2
      have hp := (List.getElem?_eq_some_iff.1 ho).1
      by_contra hcon
      rcases Nat.lt_or_ge mem'.length s.mem.length with hl | hl
      · by_cases hb : s.mem.length - 1 = a
        · have h5 : (⟨mem', s.stk⟩ : State α).stk[base.length + 3]? = some (.arr a) := ha
          rw [h5] at ha'
          cases ha'
          have := (List.getElem?_eq_some_iff.1 ho').1
          simp only at this
          omega
        · have h5 := h4 a (s.mem.length - 1) ha hb (by omega)
          simp only at h5
          rw [List.getElem?_eq_none (by omega), List.getElem?_eq_getElem (by omega)] at h5
          cases h5
      · omega
    rw [hs] at h1
    refine ⟨mem', r, by rw [← hs] at h1 ⊢; rw [h1], ?_, by omega, fun b hb => ?_⟩
    · rw [← hs]
      exact ⟨h2, fun a' ha' => hz.2 a' ha'⟩
    · have := h4 a b ha (by omega) (by omega)
      exact this

theorem irange_loop [Env α] (hc : ConvSame α) {F : Bin α} (hF : F.op = .add) {lt : α → α → Bool} {incl : Bool} {N : Nat} {base : List (V α)} {k j : Kind} {h y : α} (hk : Scalar k) :
    ∀ (xs : List α) {x : α} {zs : List α} {s : State α} {r : V α} {fuel : Nat}, Reach s → N ≤ s.mem.length → s.stk = Frame base k j x h y r → ShownFrom N s (base.length + 3) k zs → Fits (zs ++ xs) →
      Until (fun x => F.f k x (Env.conv j k y)) (fun x => if incl then lt h x = false else lt x h = true) (fun x => F.ok k x (Env.conv j k y) = true) x xs → xs.length < fuel →
      ∃ mem' x' r', irangeLoop F lt incl base.length fuel s = .ok () ⟨mem', Frame base k j x' h y r'⟩ ∧ ShownFrom N ⟨mem', Frame base k j x' h y r'⟩ (base.length + 3) k (zs ++ xs) ∧
        ∀ b, b < N → mem'[b]? = s.mem[b]? := by
  intro xs
  have hgo : ∀ (x : α) (s : State α), goesOn lt incl (.num k x) (.num k h) s =
      .ok (if incl then !lt h x else lt x h) s := by
    intro x s
    cases incl with
    | true => exact (bind_eq (lessNum_num lt hk h x s)).trans rfl
    | false => exact lessNum_num lt hk x h s
  induction xs with
  | nil =>
    intro x zs s r fuel hr hN hs hz hf hu hlt
    obtain ⟨n, rfl⟩ : ∃ n, fuel = n + 1 := ⟨fuel - 1, by simp at hlt; omega⟩
    obtain ⟨g0, g1, -, -⟩ := frame_get base k j x h y r
    rw [← hs] at g0 g1
    refine ⟨s.mem, x, r, ?_, by rw [← hs]; simpa using hz, fun _ _ => rfl⟩
    unfold irangeLoop
    refine (bind_eq (readSlot g0)).trans ((bind_eq (readSlot g1)).trans ((bind_eq (hgo x s)).trans ?_))
    cases hu with
    | stop hn =>
      have : (if incl then !lt h x else lt x h) = false := by cases incl <;> simpa using hn
      rw [this, ← hs]
      rfl
  | cons z xs ih =>
    intro x zs s r fuel hr hN hs hz hf hu hlt
    obtain ⟨n, rfl⟩ : ∃ n, fuel = n + 1 := ⟨fuel - 1, by simp at hlt; omega⟩
    obtain ⟨g0, g1, -, -⟩ := frame_get base k j x h y r
    rw [← hs] at g0 g1
    cases hu with
    | go hg hok hu =>
      have : (if incl then !lt h z else lt z h) = true := by cases incl <;> simpa using hg
      obtain ⟨m1, r1, e1, z1, n1, k1⟩ := push_param hc hr hN hk hs hz (by simp [Fits] at hf ⊢; omega)
      obtain ⟨q0, -, q2, -⟩ := frame_get base k j z h y r1
      have e2 := plain_add hF (s := ⟨m1, Frame base k j z h y r1⟩) hk q0 q2 hok
      simp only [(frame_set base k j z h y (F.f k z (Env.conv j k y)) r1 r1).1] at e2
      have z2 : ShownFrom N ⟨m1, Frame base k j (F.f k z (Env.conv j k y)) h y r1⟩ (base.length + 3) k (zs ++ [z]) := by
        have hsame : ∀ v : α, (Frame base k j v h y r1)[base.length + 3]? = some r1 := fun v => (frame_get base k j v h y r1).2.2.2
        refine ⟨?_, fun a ha => z1.2 a (by rw [hsame] at ha ⊢; exact ha)⟩
        have z1 := z1.1
        match zs ++ [z], z1 with
        | [], z1 => exact (hsame _).trans ((hsame z).symm.trans z1)
        | [_], z1 => exact (hsame _).trans ((hsame z).symm.trans z1)
        | _ :: _ :: _, ⟨a, o, ha, ho⟩ => exact ⟨a, o, (hsame _).trans ((hsame z).symm.trans ha), ho⟩
      obtain ⟨m3, x3, r3, e3, z3, k3⟩ := ih (s := ⟨m1, _⟩) ((hr.ok e1).ok e2) n1 rfl z2 (by simpa using hf) hu (by simp at hlt; omega)
      refine ⟨m3, x3, r3, ?_, by simpa using z3, fun b hb => (k3 b hb).trans (k1 b hb)⟩
      unfold irangeLoop
      refine (bind_eq (readSlot g0)).trans ((bind_eq (readSlot g1)).trans ((bind_eq (hgo z s)).trans ?_))
      rw [this]
      exact (bind_eq e1).trans ((bind_eq e2).trans e3)

theorem plain_append [Env α] {s : State α} {e : Exp α} {j : Kind} {y : α} (h : PlainOperand s e j y) (mem' : List (Option (Obj α))) (vs : List (V α)) : PlainOperand ⟨mem', s.stk ++ vs⟩ e j y := by
  cases h with
  | num hj => exact .num hj
  | name hm => exact .name (by rw [List.getElem?_append_left (List.getElem?_eq_some_iff.1 hm).1]; exact hm)

theorem run_decl [Env α] {s : State α} {e : Exp α} {v : V α} (h : eval e s = .ok v s) : run (.decl e) s = .ok () { s with stk := s.stk ++ [v] } :=
  (bind_eq h).trans rfl

theorem run_leave [Env α] {mem : List (Option (Obj α))} {stk : List (V α)} {v : V α} (h : v.ptr = none) : run (.leave) ⟨mem, stk ++ [v]⟩ = .ok () ⟨mem, stk⟩ := by
  show (match (stk ++ [v]).getLast? with
    | none => R.ub .badPointer
    | some w => detachV w ⟨mem, (stk ++ [v]).dropLast⟩) = _
  rw [List.getLast?_concat, List.dropLast_concat]
  exact detach_none h _

/-- C165: `irange(lo, hi, step)` and `range(lo, hi, step)` for numbers and variables that hold numbers: the call returns nil, a number or a new array with the numbers of the
    progression, and no variable and no array has changed.  Missing for the full claim: variables that refer to elements, for which it is false (`range_changes_element`). -/
theorem range_call_partial [Env α] (hc : ConvSame α) {F : Bin α} (hF : F.op = .add) {lt : α → α → Bool} {incl : Bool} {s : State α} (hr : Reach s) {a b c : Exp α} {k j : Kind} {x h y : α} (hk : Scalar k)
    (ha : PlainOperand s a k x) (hb : PlainOperand s b k h) (hcs : PlainOperand s c j y) {xs : List α} (hf : Fits xs)
    (hu : Until (fun x => F.f k x (Env.conv j k y)) (fun x => if incl then lt h x = false else lt x h = true) (fun x => F.ok k x (Env.conv j k y) = true) x xs) {fuel : Nat} (hl : xs.length < fuel) :
    ∃ mem' r, irangeCall F lt incl fuel a b c s = .ok () ⟨mem', s.stk ++ [r]⟩ ∧ Shown ⟨mem', s.stk ++ [r]⟩ s.stk.length k xs ∧ ∀ d, d < s.mem.length → mem'[d]? = s.mem[d]? := by
  have e1 := run_decl (plain_eval ha)
  have e2 := run_decl (plain_eval (plain_append hb s.mem [.num k x]))
  have e3 := run_decl (plain_eval (plain_append hcs s.mem [.num k x, .num k h]))
  have e4 := run_decl (s := ⟨s.mem, s.stk ++ [.num k x, .num k h, .num j y]⟩) (e := .nil) (v := .nil) rfl
  simp only [List.append_assoc, List.cons_append, List.nil_append] at e2 e3 e4
  obtain ⟨mem', x', r, e5, hz, hk5⟩ := irange_loop hc hF (lt := lt) (incl := incl) (N := s.mem.length) (base := s.stk) (s := ⟨s.mem, Frame s.stk k j x h y .nil⟩) hk xs
    ((((hr.ok e1).ok e2).ok e3).ok e4) (le_refl _) rfl (zs := []) ⟨(frame_get s.stk k j x h y .nil).2.2.2, fun a ha => by rw [(frame_get s.stk k j x h y .nil).2.2.2] at ha; cases ha⟩ hf hu hl
  refine ⟨mem', r, ?_, ?_, hk5⟩
  · have e6 : moveVar (s.stk.length + 3) ⟨mem', Frame s.stk k j x' h y r⟩ = .ok r ⟨mem', Frame s.stk k j x' h y .nil⟩ := by
      unfold moveVar
      refine (bind_eq (readSlot (s := ⟨mem', Frame s.stk k j x' h y r⟩) (frame_get s.stk k j x' h y r).2.2.2)).trans ?_
      have : writeLoc (.slot (s.stk.length + 3)) .nil ⟨mem', Frame s.stk k j x' h y r⟩ = .ok () ⟨mem', Frame s.stk k j x' h y .nil⟩ := by
        unfold writeLoc
        simp only
        rw [if_pos (by simp [Frame]), (frame_set s.stk k j x' h y x' r .nil).2]
      exact (bind_eq this).trans rfl
    unfold irangeCall
    refine (bind_eq e1).trans ((bind_eq e2).trans ((bind_eq e3).trans ((bind_eq e4).trans ((bind_eq e5).trans ((bind_eq e6).trans ?_)))))
    have l1 : run .leave ⟨mem', Frame s.stk k j x' h y .nil⟩ = .ok () ⟨mem', s.stk ++ [.num k x', .num k h, .num j y]⟩ := by
      have := run_leave (mem := mem') (stk := s.stk ++ [.num k x', .num k h, .num j y]) (v := (.nil : V α)) rfl
      simpa [Frame] using this
    have l2 : run .leave ⟨mem', s.stk ++ [.num k x', .num k h, .num j y]⟩ = .ok () ⟨mem', s.stk ++ [.num k x', .num k h]⟩ := by
      have := run_leave (mem := mem') (stk := s.stk ++ [.num k x', .num k h]) (v := (.num j y : V α)) rfl
      simpa using this
    have l3 : run .leave ⟨mem', s.stk ++ [.num k x', .num k h]⟩ = .ok () ⟨mem', s.stk ++ [.num k x']⟩ := by
      have := run_leave (mem := mem') (stk := s.stk ++ [.num k x']) (v := (.num k h : V α)) rfl
      simpa using this
    have l4 : run .leave ⟨mem', s.stk ++ [.num k x']⟩ = .ok () ⟨mem', s.stk⟩ := run_leave rfl
    exact (bind_eq l1).trans ((bind_eq l2).trans ((bind_eq l3).trans ((bind_eq l4).trans rfl)))
  · have hz := hz.1
    simp only [List.nil_append] at hz
    have g : (s.stk ++ [r])[s.stk.length]? = (Frame s.stk k j x' h y r)[s.stk.length + 3]? := by
      rw [(frame_get s.stk k j x' h y r).2.2.2]
      exact List.getElem?_concat_length ..
    match xs, hz with
    | [], hz => exact g.trans hz
    | [_], hz => exact g.trans hz
    | _ :: _ :: _, ⟨a, o, ha, ho⟩ => exact ⟨a, o, g.trans ha, ho⟩

attribute [local instance] intEnv

-- `x = 2; irange(x, 5)`
example : Until (fun x : Int => (binF .add (· + ·)).f .int x 1) (fun x => if false = true then decide (5 < x) = false else decide (x < 5) = true) (fun _ => True) 2 [2, 3, 4] :=
  .go (by decide) trivial (.go (by decide) trivial (.go (by decide) trivial (.stop (by decide))))

example : Reach (final [.decl (.num .int 2)]) ∧ PlainOperand (final [.decl (.num .int 2)]) (.name 0) .int 2 ∧ Fits [(2 : Int), 3, 4] :=
  ⟨reach_exec [.decl (.num .int 2)] .start (by decide +kernel), .name (by decide +kernel), by unfold Fits; decide⟩

/-- The full claim: no array is changed by a call, also if an argument is an element. -/
def RangeKeeps : Prop := ∀ (s s' : State Int) (n i fuel : Nat) (h : Int), Reach s →
  irangeCall (binF .add (· + ·)) (fun x y => decide (x < y)) false fuel (.elem n i) (.num .int h) (.num .int 1) s = .ok () s' → AllSame s s'

/-- C165 is false: after `a = {1, 2, 3}`, the call `irange(a[0], 5)` has made `a[0]` 5. -/
theorem range_changes_element : ¬ RangeKeeps := by
  intro hall
  have hok : ∃ s', irangeCall (binF .add (· + ·)) (fun x y => decide (x < y)) false 9 (.elem 0 (0 : Nat)) (.num .int 5) (.num .int 1) (final prog123) = .ok () s' ∧
      ∃ o, s'.mem[0]? = some (some o) ∧ o.cells[0]? = some (.raw (some 5)) := by
    have h : (match irangeCall (binF .add (· + ·)) (fun x y => decide (x < y)) false 9 (.elem 0 (0 : Nat)) (.num .int 5) (.num .int 1) (final prog123) with
      | .ok _ s' => match s'.mem[0]? with
        | some (some o) => o.cells[0]? == some (.raw (some 5))
        | _ => false
      | _ => false) = true := by decide +kernel
    split at h
    · next s' e =>
      split at h
      · next o ho => exact ⟨s', e, o, ho, by simpa using h⟩
      · exact absurd h (by simp)
    · exact absurd h (by simp)
  obtain ⟨s', e, o, ho, hv⟩ := hok
  have hs := hall _ s' 0 0 9 5 (reach_exec prog123 .start (by decide +kernel)) e
  obtain ⟨p, hp, hp0⟩ : ∃ p, (final prog123).mem[0]? = some (some p) ∧ p.cells[0]? = some (.raw (some 1)) :=
    ⟨⟨.int, 3, 1, [.raw (some 1), .raw (some 2), .raw (some 3)] ++ List.replicate 5 (.raw none)⟩, by decide +kernel, by decide +kernel⟩
  rcases hs.1 0 p hp with h | ⟨o', ho', -, -, hcells⟩
  · rw [ho] at h; cases h
  · rw [ho] at ho'
    cases ho'
    rw [hcells, hp0] at hv
    exact absurd hv (by decide)

#print axioms range_call_partial
#print axioms range_changes_element

end Libube.MemProps

import Mathlib.Algebra.Order.Ring.Abs
import Verif.Spec.IntArith
import Verif.Props.Cast

/-! # C177: arithmetic on single integers; C176 for them -/

namespace Libube.IntProps

open IntSpec CastProps CString

/-- `b` is converted to the type of `a` as `v`. -/
def Conv (a : Whole) (b : Val) (v : Int) : Prop :=
  match a with
  | .char _ => ∃ y, castChar b = .ok y ∧ y.toBitVec.toInt = v
  | .int _ => ∃ y, castInt b = .ok y ∧ y.toInt = v
  | .long _ => ∃ y, castLong b = .ok y ∧ y.toInt = v

def finish (a : Whole) (z : Int) : Outcome Whole :=
  match a with
  | .char _ => .ok (.char ⟨BitVec.ofInt 8 z⟩)
  | .int _ => fitInt 32 z >>= fun r => .ok (.int r)
  | .long _ => fitInt 64 z >>= fun r => .ok (.long r)

theorem intArith_conv {a : Whole} {b : Val} {v : Int} (h : Conv a b v) (op : IntOp) :
    intArith op a b = (op.apply (num a) v >>= finish a) := by
  cases a <;> obtain ⟨y, e, rfl⟩ := h <;> unfold intArith <;> simp only [e, Outcome.bind_ok] <;> rfl

theorem width_pos (a : Whole) : 0 < width a := by cases a <;> exact Nat.zero_lt_succ _

theorem fits_toInt {w : Nat} (hw : 0 < w) (b : BitVec w) : Fits w b.toInt := by
  refine ⟨?_, ?_⟩
  · have := BitVec.le_toInt b; simpa using this
  · exact BitVec.toInt_lt

theorem dvd_signExtend {n : Nat} (w : Nat) (b : BitVec n) : (2 ^ w : Int) ∣ (b.signExtend w).toInt - b.toInt := by
  unfold BitVec.signExtend
  rw [BitVec.toInt_ofInt]
  have := Int.bmod_add_bdiv b.toInt (2 ^ w)
  refine ⟨-(b.toInt.bdiv (2 ^ w)), ?_⟩
  push_cast at this ⊢
  linarith

theorem scalarToInt_held {w : Nat} (hw : 0 < w) {b : Val} {v : Int} (h : held b = some v) :
    ∃ y : BitVec w, scalarToInt w b = .ok y ∧ (2 ^ w : Int) ∣ y.toInt - v ∧ (Fits w v → y.toInt = v) := by
  cases b <;> simp only [held, Option.some.injEq, reduceCtorEq] at h <;> subst h <;>
    exact ⟨_, rfl, dvd_signExtend _ _, fun hf => signExtend_fits hw _ hf⟩

theorem conv_held (a : Whole) {b : Val} {v : Int} (h : held b = some v) :
    ∃ v', Conv a b v' ∧ Fits (width a) v' ∧ (2 ^ width a : Int) ∣ v' - v ∧ (Fits (width a) v → v' = v) := by
  obtain ⟨y, e, h1, h2⟩ := scalarToInt_held (width_pos a) h
  refine ⟨y.toInt, ?_, fits_toInt (width_pos a) y, h1, h2⟩
  have hb : ∀ {β : Type} (f : Val → Outcome β) (g : Bytes → Option β), castTo f g b = f b := by
    intro β f g
    cases b <;> simp only [held, reduceCtorEq] at h <;> rfl
  cases a
  · exact ⟨⟨y⟩, by unfold castChar; rw [hb]; simp only [width] at e; rw [e]; rfl, rfl⟩
  · exact ⟨y, by unfold castInt; rw [hb]; exact e, rfl⟩
  · exact ⟨y, by unfold castLong; rw [hb]; exact e, rfl⟩

theorem apply_exact {op : IntOp} {x y z : Int} (h : Exact op x y z) : op.apply x y = .ok z := by
  cases op
  · exact congrArg Outcome.ok (Eq.symm h)
  · exact congrArg Outcome.ok (Eq.symm h)
  · exact congrArg Outcome.ok (Eq.symm h)
  · obtain ⟨r, h1, h2, h3, h4⟩ := h
    have hy : y ≠ 0 := by rintro rfl; rw [abs_zero] at h2; exact absurd h2 (not_lt.2 (abs_nonneg r))
    have e := Int.mul_tdiv_add_tmod x y
    have hr : |x.tmod y| < |y| := by
      rw [Int.abs_eq_natAbs, Int.abs_eq_natAbs, Int.natAbs_tmod]
      exact_mod_cast Nat.mod_lt _ (by omega)
    have hp : 0 ≤ x → 0 ≤ x.tmod y := fun h => Int.tmod_nonneg y h
    have hn : x ≤ 0 → x.tmod y ≤ 0 := fun h => by
      have := Int.tmod_nonneg y (a := -x) (by omega)
      rw [Int.neg_tmod] at this; omega
    have hd : |x.tmod y - r| < |y| := by
      rw [abs_lt] at *
      rcases le_total 0 x with h | h
      · have := hp h; have := h3 h; constructor <;> omega
      · have := hn h; have := h4 h; constructor <;> omega
    have hq : y * (z - x.tdiv y) = x.tmod y - r := by rw [mul_sub]; omega
    have hz : z - x.tdiv y = 0 := by
      by_contra hne
      rw [← hq, abs_mul] at hd
      have : 1 ≤ |z - x.tdiv y| := Int.one_le_abs hne
      nlinarith [abs_nonneg y]
    unfold IntOp.apply
    simp only
    rw [if_neg hy, show z = x.tdiv y by omega]

theorem fitInt_fits {w : Nat} {z : Int} (h : Fits w z) : fitInt w z = .ok (BitVec.ofInt w z) := if_pos h

theorem fitInt_not {w : Nat} {z : Int} (h : ¬ Fits w z) : fitInt w z = .ub .overflow := if_neg h

theorem finish_fits {a : Whole} {z : Int} (h : Fits (width a) z) : ∃ c, finish a z = .ok c ∧ width c = width a ∧ num c = z := by
  cases a
  · exact ⟨_, rfl, rfl, toInt_fits (by decide) h⟩
  · exact ⟨.int (BitVec.ofInt 32 z), by unfold finish; simp only; rw [fitInt_fits (w := 32) h]; rfl, rfl, toInt_fits (by decide) h⟩
  · exact ⟨.long (BitVec.ofInt 64 z), by unfold finish; simp only; rw [fitInt_fits (w := 64) h]; rfl, rfl, toInt_fits (by decide) h⟩

/-- C177: if the right operand fits into the type of the left one, the result is exact where it fits into that type too.
    Where it does not, it is undefined for `int` and `long`, and for `char` it is off by a multiple of 256.  Missing: right
    operands that do not fit (`right_operand_reduced`), and floating point numbers. -/
theorem int_arith_partial (op : IntOp) (a : Whole) (b : Val) (v z : Int) (hb : held b = some v) (hv : Fits (width a) v)
    (hz : Exact op (num a) v z) :
    (Fits (width a) z → ∃ c, intArith op a b = .ok c ∧ width c = width a ∧ num c = z) ∧
    (¬ Fits (width a) z → width a ≠ 8 → intArith op a b = .ub .overflow) ∧
    (width a = 8 → ∃ c, intArith op a b = .ok c ∧ width c = 8 ∧ (256 : Int) ∣ num c - z) := by
  obtain ⟨v', hc, _, _, he⟩ := conv_held a hb
  obtain rfl := he hv
  rw [intArith_conv hc, apply_exact hz, Outcome.bind_ok]
  refine ⟨finish_fits, fun hf h8 => ?_, fun h8 => ?_⟩
  · cases a
    · exact absurd rfl h8
    · unfold finish; simp only; rw [fitInt_not (w := 32) hf]; rfl
    · unfold finish; simp only; rw [fitInt_not (w := 64) hf]; rfl
  · cases a
    · refine ⟨_, rfl, rfl, ?_⟩
      show (256 : Int) ∣ (BitVec.ofInt 8 z).toInt - z
      rw [BitVec.toInt_ofInt]
      have := Int.bmod_add_bdiv z 256
      exact ⟨-(z.bdiv 256), by push_cast at *; omega⟩
    · cases h8
    · cases h8

-- 7 / -2 is -3; 100 + 100 is -56 for characters
example : held (.char 254) = some (-2) ∧ Fits (width (.int 7)) (-2) ∧ Exact .div (num (.int 7)) (-2) (-3) ∧
    intArith .div (.int 7) (.char 254) = .ok (.int (BitVec.ofInt 32 (-3))) ∧ intArith .add (.char 100) (.int 100) = .ok (.char 200) :=
  ⟨rfl, by decide, ⟨1, by decide, by decide, by decide, by decide⟩, by decide +kernel, by decide +kernel⟩

/-- C177 for all integers on the right: one that does not fit is replaced by one that differs from it by a multiple of 2 to
    the number of bits. -/
theorem right_operand_reduced (a : Whole) (b : Val) (v : Int) (hb : held b = some v) :
    ∃ v', Fits (width a) v' ∧ (2 ^ width a : Int) ∣ v' - v ∧
      ∀ op b', held b' = some v' → intArith op a b = intArith op a b' := by
  obtain ⟨v', hc, hf, hd, _⟩ := conv_held a hb
  refine ⟨v', hf, hd, fun op b' hb' => ?_⟩
  obtain ⟨v'', hc', _, _, he⟩ := conv_held a hb'
  obtain rfl := he hf
  rw [intArith_conv hc, intArith_conv hc']

/-- C177 fails: 1 + 2^32 is 1 for an `int` on the left, while 2^32 + 1 is right. -/
theorem order_matters :
    intArith .add (.int 1) (.long (BitVec.ofInt 64 (2 ^ 32))) = .ok (.int 1) ∧
    intArith .add (.long (BitVec.ofInt 64 (2 ^ 32))) (.int 1) = .ok (.long (BitVec.ofInt 64 (2 ^ 32 + 1))) := by decide +kernel

/-- Sums and products of integers of the same type do not depend on the order of the operands, defined or not. -/
theorem commutes (op : IntOp) (hop : op = .add ∨ op = .mul) (a b : Whole) (h : width a = width b) :
    intArith op a b.val = intArith op b a.val := by
  have hself : ∀ a b : Whole, width a = width b → Conv a b.val (num b) := by
    intro a b h
    have hb : held b.val = some (num b) := by cases b <;> rfl
    obtain ⟨v', hc, _, _, he⟩ := conv_held a hb
    have : Fits (width a) (num b) := by
      rw [h]; cases b
      · exact fits_toInt (w := 8) (by decide) _
      · exact fits_toInt (w := 32) (by decide) _
      · exact fits_toInt (w := 64) (by decide) _
    rwa [he this] at hc
  rw [intArith_conv (hself a b h), intArith_conv (hself b a h.symm)]
  have hfin : finish a = finish b := by
    cases a <;> cases b <;> first | rfl | cases h
  rw [hfin]
  rcases hop with rfl | rfl
  · exact congrArg (fun z => Outcome.ok z >>= finish b) (Int.add_comm (num a) (num b))
  · exact congrArg (fun z => Outcome.ok z >>= finish b) (Int.mul_comm (num a) (num b))

example : width (.int 3) = width (.int 4) ∧ intArith .mul (.int 3) (Whole.val (.int 4)) = .ok (.int 12) := ⟨rfl, by decide +kernel⟩

/-- Division by zero is undefined for all integers, and so is that by a multiple of 2^32 for an `int`. -/
theorem division_by_zero (a : Whole) (b : Val) (v : Int) (hb : held b = some v) (hv : (2 ^ width a : Int) ∣ v) :
    intArith .div a b = .ub .divZero := by
  obtain ⟨v', hc, hf, hd, _⟩ := conv_held a hb
  have h0 : v' = 0 := by
    have : (2 ^ width a : Int) ∣ v' := by have := dvd_add hd hv; simpa using this
    obtain ⟨k, hk⟩ := this
    obtain ⟨h1, h2⟩ := hf
    cases a <;> simp only [width, Nat.reduceSub, Nat.reducePow] at * <;> omega
  rw [intArith_conv hc, h0]
  rfl

example : held (.long (BitVec.ofInt 64 (2 ^ 32))) = some (2 ^ 32) := by decide +kernel

/-- A floating point number on the right counts with its integer part, if that fits; else the operation is undefined. -/
theorem floating_operand {b : Val} {scale : Nat} {y : Int} (h : real b = some (scale, some y)) (a : Whole) :
    ∃ t, IntPart scale y t ∧ (Fits (width a) t → ∀ op b', held b' = some t → intArith op a b = intArith op a b') ∧
      (¬ Fits (width a) t → ∀ op, intArith op a b = .ub .overflow) := by
  have hs : ∀ w, scalarToInt w b = truncate w scale (some y) := by
    intro w
    cases b <;> simp only [real, Option.some.injEq, Prod.mk.injEq, reduceCtorEq] at h <;> obtain ⟨rfl, h⟩ := h <;> rw [← h] <;> rfl
  have hb : ∀ {β : Type} (f : Val → Outcome β) (g : Bytes → Option β), castTo f g b = f b := by
    intro β f g
    cases b <;> simp only [real, reduceCtorEq] at h <;> rfl
  refine ⟨_, tdiv_part scale y, fun hf op b' hb' => ?_, fun hf op => ?_⟩
  · obtain ⟨v', hc', _, _, he⟩ := conv_held a hb'
    obtain rfl := he hf
    have ht : truncate (width a) scale (some y) = .ok (BitVec.ofInt (width a) (y.tdiv (2 ^ scale))) := by
      unfold truncate; exact if_pos hf
    have hc : Conv a b (y.tdiv (2 ^ scale)) := by
      cases a
      · exact ⟨_, by unfold castChar; rw [hb, hs]; simp only [width] at ht; rw [ht]; rfl, toInt_fits (by decide) hf⟩
      · exact ⟨_, by unfold castInt; rw [hb, hs]; exact ht, toInt_fits (by decide) hf⟩
      · exact ⟨_, by unfold castLong; rw [hb, hs]; exact ht, toInt_fits (by decide) hf⟩
    rw [intArith_conv hc, intArith_conv hc']
  · have ht : truncate (width a) scale (some y) = .ub .overflow := by
      unfold truncate; exact if_neg hf
    cases a
    · unfold intArith castChar; simp only; rw [hb, hs]; simp only [width] at ht; rw [ht]; rfl
    · unfold intArith castInt; simp only; rw [hb, hs]; simp only [width] at ht; rw [ht]; rfl
    · unfold intArith castLong; simp only; rw [hb, hs]; simp only [width] at ht; rw [ht]; rfl

/-- 2 * 0.5 is 0 for an integer on the left. -/
example : real (.float 0x3F000000) = some (149, some (2 ^ 148)) ∧ intArith .mul (.int 2) (.float 0x3F000000) = .ok (.int 0) := by decide +kernel

/-- C176 for integers: `-x` is the negative, but for the smallest `int` and `long`, where it is undefined, and -128 as a
    `char`, which is its own negative. -/
theorem negate_int_partial (a : Whole) :
    (num a ≠ -2 ^ (width a - 1) → ∃ c, negateInt a = .ok c ∧ width c = width a ∧ num c = -num a ∧ negateInt c = .ok a) ∧
    (num a = -2 ^ (width a - 1) → width a ≠ 8 → negateInt a = .ub .overflow) ∧
    (num a = -2 ^ (width a - 1) → width a = 8 → negateInt a = .ok a) := by
  have h1 : held (.int (BitVec.ofInt 32 (-1))) = some (-1) := by decide +kernel
  have hw : ∀ a : Whole, Fits (width a) (-1) := by intro a; cases a <;> (unfold Fits; simp only [width]; decide)
  have hn : ∀ a : Whole, Fits (width a) (num a) := by
    intro a; cases a
    · exact fits_toInt (w := 8) (by decide) _
    · exact fits_toInt (w := 32) (by decide) _
    · exact fits_toInt (w := 64) (by decide) _
  have key : ∀ a : Whole, _ := fun a => int_arith_partial .mul a _ _ (-num a) h1 (hw a) (by show -num a = num a * -1; omega)
  have inj : ∀ a b : Whole, width a = width b → num a = num b → a = b := by
    intro a b h1 h2
    cases a <;> cases b <;> first | cases h1 | skip
    · exact congrArg Whole.char (UInt8.toBitVec_inj.1 (BitVec.toInt_inj.1 h2))
    · exact congrArg Whole.int (BitVec.toInt_inj.1 h2)
    · exact congrArg Whole.long (BitVec.toInt_inj.1 h2)
  refine ⟨fun h => ?_, fun h h8 => ?_, fun h h8 => ?_⟩
  · have hf : Fits (width a) (-num a) := by
      obtain ⟨l, r⟩ := hn a
      exact ⟨by omega, by omega⟩
    obtain ⟨c, e, ec, en⟩ := (key a).1 hf
    refine ⟨c, e, ec, en, ?_⟩
    obtain ⟨d, e', ed, en'⟩ := (key c).1 (by rw [en, ec, neg_neg]; exact hn a)
    rw [show negateInt c = .ok d from e', inj d a (ed.trans ec) (by rw [en', en, neg_neg])]
  · refine (key a).2.1 ?_ h8
    rintro ⟨l, r⟩
    rw [h] at r
    omega
  · obtain ⟨c, e, ec, en⟩ := (key a).2.2 h8
    rw [show negateInt a = .ok c from e, inj c a (ec.trans h8.symm) ?_]
    have := hn c
    rw [ec] at this
    rw [h8] at h
    simp only [Fits, Nat.reduceSub] at this h
    omega

example : num (.char 128) = -2 ^ (width (.char 128) - 1) ∧ negateInt (.char 128) = .ok (.char 128) ∧
    negateInt (.long 5) = .ok (.long (BitVec.ofInt 64 (-5))) := by decide +kernel

end Libube.IntProps

#print axioms Libube.IntProps.int_arith_partial
#print axioms Libube.IntProps.right_operand_reduced
#print axioms Libube.IntProps.order_matters
#print axioms Libube.IntProps.commutes
#print axioms Libube.IntProps.division_by_zero
#print axioms Libube.IntProps.floating_operand
#print axioms Libube.IntProps.negate_int_partial

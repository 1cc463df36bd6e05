import Mathlib.Data.List.TakeWhile
import Verif.Model.Cast
import Verif.Lemmas.JsonNum

/-! # C139: conversion to integers -/

namespace Libube.CastProps

open CString Json

/-! ## Specification -/

/-- White space: blank, tab, line feed, vertical tab, form feed, carriage return. -/
def Blank (c : UInt8) : Prop := c = 32 ∨ c = 9 ∨ c = 10 ∨ c = 11 ∨ c = 12 ∨ c = 13

/-- A decimal digit and its value. -/
def Digit (c : UInt8) : Prop := 48 ≤ c ∧ c ≤ 57

/-- The number a run of decimal digits stands for. -/
def decimal (ds : Bytes) : Nat := Nat.ofDigits 10 (ds.reverse.map fun c => c.toNat - 48)

/-- `s` begins with a decimal numeral, after white space: this is its value. -/
def Numeral (s : Bytes) (v : Int) : Prop :=
  ∃ ws sg ds rest : Bytes, s = ws ++ (sg ++ (ds ++ rest)) ∧ (∀ c ∈ ws, Blank c) ∧ (∀ c ∈ ds, Digit c) ∧ ds ≠ [] ∧
    (∀ c, rest.head? = some c → ¬ Digit c) ∧
    ((sg = [45] ∧ v = -(decimal ds : Int)) ∨ ((sg = [] ∨ sg = [43]) ∧ v = decimal ds))

/-- The integer part of a number in units of 2^-`scale`. -/
def IntPart (scale : Nat) (x t : Int) : Prop :=
  (0 ≤ x → t * 2 ^ scale ≤ x ∧ x < (t + 1) * 2 ^ scale) ∧ (x < 0 → (t - 1) * 2 ^ scale < x ∧ x ≤ t * 2 ^ scale)

/-- The signed integers of `w` bits. -/
def Fits (w : Nat) (v : Int) : Prop := -(2 ^ (w - 1) : Int) ≤ v ∧ v < 2 ^ (w - 1)

instance (w : Nat) (v : Int) : Decidable (Fits w v) := inferInstanceAs (Decidable (_ ∧ _))

/-! ## Proofs -/

theorem isspace_iff (c : UInt8) : isspace c = true ↔ Blank c := by
  unfold isspace Blank; simp [or_assoc]

theorem isdigit_iff (c : UInt8) : isdigit c = true ↔ Digit c := by
  unfold isdigit Digit; simp

theorem digitsVal_eq (ds : Bytes) : digitsVal ds = decimal ds := by
  induction ds using List.reverseRecOn with
  | nil => rfl
  | append_singleton ds c ih =>
    unfold digitsVal decimal at *
    rw [List.foldl_append, ih, List.reverse_append]
    simp only [List.foldl_cons, List.foldl_nil, List.reverse_singleton, List.singleton_append, List.map_cons, Nat.ofDigits_cons]
    omega

theorem toInt_fits {w : Nat} (hw : 0 < w) {v : Int} (h : Fits w v) : (BitVec.ofInt w v).toInt = v := by
  obtain ⟨w, rfl⟩ : ∃ m, w = m + 1 := ⟨w - 1, by omega⟩
  obtain ⟨h1, h2⟩ := h
  rw [Nat.add_sub_cancel] at h1 h2
  rw [BitVec.toInt_ofInt]
  have hp : ((2 ^ (w + 1) : Nat) : Int) = 2 * 2 ^ w := by push_cast; ring
  apply Int.bmod_eq_of_le <;> rw [hp] <;> omega

/-- What `readNum` finds, from its three steps. -/
theorem readNum_parts {ws sg ds rest : Bytes} (hws : ∀ c ∈ ws, isspace c = true) (hds : ∀ c ∈ ds, isdigit c = true) (hne : ds ≠ [])
    (hr : ∀ c, rest.head? = some c → isdigit c = false) (hsg : sg = [45] ∨ sg = [] ∨ sg = [43]) (w : Nat) :
    readNum w (ws ++ (sg ++ (ds ++ rest))) =
      let v : Int := if sg = [45] then -(digitsVal ds : Int) else digitsVal ds
      if Fits w v then some (BitVec.ofInt w v) else none := by
  have h1 : (ws ++ (sg ++ (ds ++ rest))).dropWhile isspace = sg ++ (ds ++ rest) := by
    rw [List.dropWhile_append_of_pos hws]
    obtain ⟨c, ds', rfl⟩ := List.exists_cons_of_ne_nil hne
    rcases hsg with rfl | rfl | rfl
    · rfl
    · have := (isdigit_plain c (Or.inl (hds c (by simp)))).1
      simp [List.dropWhile_cons_of_neg, this]
    · rfl
  have h2 : splitSign (sg ++ (ds ++ rest)) = (decide (sg = [45]), ds ++ rest) := by
    obtain ⟨c, ds', rfl⟩ := List.exists_cons_of_ne_nil hne
    rcases hsg with rfl | rfl | rfl
    · rfl
    · have h := isdigit_ne c (hds c (by simp))
      show splitSign (c :: (ds' ++ rest)) = (false, c :: (ds' ++ rest))
      unfold splitSign
      split
      · rename_i e; injection e with e; exact absurd e h.1
      · rename_i e; injection e with e; exact absurd e h.2
      · rfl
    · rfl
  unfold readNum
  rw [h1, h2]
  simp only [takeWhile_digits ds rest hds hr]
  rw [if_neg hne]
  unfold Fits
  by_cases hs : sg = [45] <;> simp [hs]

theorem readNum_numeral {s : Bytes} {v : Int} (h : Numeral s v) (w : Nat) :
    readNum w s = if Fits w v then some (BitVec.ofInt w v) else none := by
  obtain ⟨ws, sg, ds, rest, rfl, h1, h2, h3, h4, h5⟩ := h
  rw [readNum_parts (fun c hc => (isspace_iff c).2 (h1 c hc)) (fun c hc => (isdigit_iff c).2 (h2 c hc)) h3
    (fun c hc => by rw [Bool.eq_false_iff]; exact fun e => h4 c hc ((isdigit_iff c).1 e))]
  · simp only [digitsVal_eq]
    rcases h5 with ⟨rfl, rfl⟩ | ⟨rfl | rfl, rfl⟩ <;> rfl
  · rcases h5 with ⟨rfl, -⟩ | ⟨rfl | rfl, -⟩ <;> simp

theorem readNum_other {s : Bytes} (h : ¬ ∃ v, Numeral s v) (w : Nat) : readNum w s = none := by
  unfold readNum
  generalize hsp : splitSign (s.dropWhile isspace) = sp
  obtain ⟨neg, t⟩ := sp
  by_cases hd : t.takeWhile isdigit = []
  · simp only [hd, if_true]
  exfalso
  apply h
  have hs : s = s.takeWhile isspace ++ s.dropWhile isspace := List.takeWhile_append_dropWhile.symm
  have ht : t = t.takeWhile isdigit ++ t.dropWhile isdigit := List.takeWhile_append_dropWhile.symm
  obtain ⟨sg, hsg, hc⟩ : ∃ sg : Bytes, s.dropWhile isspace = sg ++ t ∧ (sg = [45] ∨ sg = [] ∨ sg = [43]) := by
    unfold splitSign at hsp
    split at hsp
    · rename_i u e; injection hsp with _ h2; subst h2; exact ⟨[45], e, by simp⟩
    · rename_i u e; injection hsp with _ h2; subst h2; exact ⟨[43], e, by simp⟩
    · injection hsp with _ h2; exact ⟨[], by rw [h2]; rfl, by simp⟩
  refine ⟨if sg = [45] then -(decimal (t.takeWhile isdigit) : Int) else decimal (t.takeWhile isdigit), s.takeWhile isspace, sg, t.takeWhile isdigit,
    t.dropWhile isdigit, ?_, ?_, ?_, hd, ?_, ?_⟩
  · rw [← ht, ← hsg]; exact hs
  · intro c hc; exact (isspace_iff c).1 (List.mem_takeWhile_imp hc)
  · intro c hc; exact (isdigit_iff c).1 (List.mem_takeWhile_imp hc)
  · intro c hc hdig
    have := List.head?_dropWhile_not isdigit t
    rw [hc] at this
    simp only at this
    rw [(isdigit_iff c).2 hdig] at this
    exact absurd this (by simp)
  · rcases hc with rfl | rfl | rfl
    · left; simp
    · right; simp
    · right; simp

/-- C139: a text is converted to the decimal number at its beginning, whatever follows; if there is none or it does not fit, an exception is
    thrown. -/
theorem text_partial (s : Bytes) :
    (∀ v, Numeral s v → (Fits 32 v → ∃ b, castInt (.chars s) = .ok b ∧ b.toInt = v) ∧ (¬ Fits 32 v → castInt (.chars s) = .thrown .ioFailure) ∧
      (Fits 64 v → ∃ b, castLong (.chars s) = .ok b ∧ b.toInt = v) ∧ (¬ Fits 64 v → castLong (.chars s) = .thrown .ioFailure)) ∧
    ((¬ ∃ v, Numeral s v) → castInt (.chars s) = .thrown .ioFailure ∧ castLong (.chars s) = .thrown .ioFailure) := by
  refine ⟨fun v h => ⟨fun hf => ?_, fun hf => ?_, fun hf => ?_, fun hf => ?_⟩, fun h => ⟨?_, ?_⟩⟩
  · refine ⟨_, ?_, toInt_fits (by decide) hf⟩
    unfold castInt castTo; simp only [readNum_numeral h, if_pos hf]
  · unfold castInt castTo; simp only [readNum_numeral h, if_neg hf]
  · refine ⟨_, ?_, toInt_fits (by decide) hf⟩
    unfold castLong castTo; simp only [readNum_numeral h, if_pos hf]
  · unfold castLong castTo; simp only [readNum_numeral h, if_neg hf]
  · unfold castInt castTo; simp only [readNum_other h]
  · unfold castLong castTo; simp only [readNum_other h]

/-- " -12abc" begins with the numeral -12. -/
example : Numeral [32, 45, 49, 50, 97, 98, 99] (-12) :=
  ⟨[32], [45], [49, 50], [97, 98, 99], rfl, by simp [Blank], by simp [Digit], by decide, by simp [Digit], Or.inl ⟨rfl, by decide⟩⟩

/-- C139: what an integer is written as is converted to the integer. -/
theorem written (i : BitVec 32) (l : BitVec 64) : castInt (.chars (showInt i.toInt)) = .ok i ∧ castLong (.chars (showInt l.toInt)) = .ok l := by
  have key : ∀ x : Int, Numeral (showInt x) x := by
    intro x
    unfold showInt
    have hd : ∀ n : Nat, ∀ c ∈ showNat n, Digit c := fun n c hc => (isdigit_iff c).1 (showNat_digits n c hc)
    split
    · refine ⟨[], [45], showNat x.natAbs, [], by simp, by simp, hd _, showNat_ne_nil _, by simp, Or.inl ⟨rfl, ?_⟩⟩
      rw [← digitsVal_eq, digitsVal_showNat]; omega
    · refine ⟨[], [], showNat x.natAbs, [], by simp, by simp, hd _, showNat_ne_nil _, by simp, Or.inr ⟨Or.inl rfl, ?_⟩⟩
      rw [← digitsVal_eq, digitsVal_showNat]; omega
  constructor
  · obtain ⟨b, h1, h2⟩ := ((text_partial _).1 _ (key i.toInt)).1 ⟨BitVec.le_toInt i, BitVec.toInt_lt⟩
    rw [h1, BitVec.eq_of_toInt_eq h2]
  · obtain ⟨b, h1, h2⟩ := ((text_partial _).1 _ (key l.toInt)).2.2.1 ⟨BitVec.le_toInt l, BitVec.toInt_lt⟩
    rw [h1, BitVec.eq_of_toInt_eq h2]

/-- The integer a var of an integer type holds. -/
def held : Val → Option Int
  | .char c => some c.toBitVec.toInt
  | .int i => some i.toInt
  | .long l => some l.toInt
  | _ => none

theorem signExtend_fits {n w : Nat} (hw : 0 < w) (b : BitVec n) (h : Fits w b.toInt) : (b.signExtend w).toInt = b.toInt := by
  unfold BitVec.signExtend
  exact toInt_fits hw h

/-- C139: an integer is converted to itself if it fits, else to the one that differs by a multiple of 2^32. -/
theorem integer_partial {x : Val} {v : Int} (h : held x = some v) :
    (∃ b, castInt x = .ok b ∧ (Fits 32 v → b.toInt = v) ∧ (2 ^ 32 : Int) ∣ b.toInt - v) ∧ (∃ b, castLong x = .ok b ∧ b.toInt = v) := by
  have key : ∀ {n : Nat} (b : BitVec n), (2 ^ 32 : Int) ∣ (b.signExtend 32).toInt - b.toInt := by
    intro n b
    unfold BitVec.signExtend
    rw [BitVec.toInt_ofInt]
    have := Int.bmod_add_bdiv b.toInt (2 ^ 32)
    refine ⟨-(b.toInt.bdiv (2 ^ 32)), ?_⟩
    push_cast at this ⊢
    omega
  cases x <;> simp only [held, Option.some.injEq, reduceCtorEq] at h <;> subst h
  · rename_i c
    refine ⟨⟨_, rfl, fun hf => signExtend_fits (by decide) _ hf, key _⟩, ⟨_, rfl, signExtend_fits (by decide) _ ?_⟩⟩
    have h1 := BitVec.le_toInt c.toBitVec
    have h2 := @BitVec.toInt_lt 8 c.toBitVec
    constructor <;> simp only [Nat.reduceSub] at * <;> omega
  · rename_i c
    refine ⟨⟨_, rfl, fun hf => signExtend_fits (by decide) _ hf, key _⟩, ⟨_, rfl, signExtend_fits (by decide) _ ?_⟩⟩
    have h1 := BitVec.le_toInt c
    have h2 := @BitVec.toInt_lt 32 c
    constructor <;> simp only [Nat.reduceSub] at * <;> omega
  · rename_i c
    refine ⟨⟨_, rfl, fun hf => signExtend_fits (by decide) _ hf, key _⟩, ⟨_, rfl, signExtend_fits (by decide) _ ?_⟩⟩
    exact ⟨BitVec.le_toInt c, BitVec.toInt_lt⟩

example : held (.char 200) = some (-56) := rfl

/-- C139: an integer that does not fit is silently changed. -/
theorem integer_lost : castInt (.long (BitVec.ofInt 64 (2 ^ 32 + 7))) = .ok 7 := by decide +kernel

theorem tdiv_part (scale : Nat) (x : Int) : IntPart scale x (x.tdiv (2 ^ scale)) := by
  have hp : (0 : Int) < 2 ^ scale := Int.pow_pos (by omega)
  generalize hP : (2 : Int) ^ scale = P at hp
  unfold IntPart
  rw [hP]
  have h := Int.mul_tdiv_add_tmod x P
  constructor
  · intro h0
    have h1 := Int.tmod_nonneg P h0
    have h2 := Int.tmod_lt_of_pos x hp
    constructor <;> nlinarith
  · intro h0
    have h1 : x.tmod P ≤ 0 := by
      have := Int.tmod_nonneg P (a := -x) (by omega)
      rw [Int.neg_tmod] at this; omega
    have h2 : -P < x.tmod P := by
      have := Int.tmod_lt_of_pos (-x) hp
      rw [Int.neg_tmod] at this; omega
    constructor <;> nlinarith

/-- A floating point number in units of the smallest one, 2^-149 or 2^-1074; `none` for infinities and NaN. -/
def real : Val → Option (Nat × Option Int)
  | .float f => some (149, Ieee.val32 f)
  | .double d => some (1074, Ieee.val64 d)
  | .cfloat re _ => some (149, Ieee.val32 re)
  | _ => none

/-- C139: a floating point number is converted to its integer part, of a complex number that of the real part, if it fits.  If not, or if it is
    infinite or not a number, the conversion is undefined. -/
theorem floating_partial {x : Val} {scale : Nat} {r : Option Int} (h : real x = some (scale, r)) :
    (r = none → castInt x = .ub .overflow ∧ castLong x = .ub .overflow) ∧
    (∀ y, r = some y → ∃ t, IntPart scale y t ∧ (Fits 32 t → ∃ b, castInt x = .ok b ∧ b.toInt = t) ∧ (¬ Fits 32 t → castInt x = .ub .overflow) ∧
      (Fits 64 t → ∃ b, castLong x = .ok b ∧ b.toInt = t) ∧ (¬ Fits 64 t → castLong x = .ub .overflow)) := by
  have key : castInt x = truncate 32 scale r ∧ castLong x = truncate 64 scale r := by
    cases x <;> simp only [real, Option.some.injEq, Prod.mk.injEq, reduceCtorEq] at h <;> obtain ⟨rfl, rfl⟩ := h <;> exact ⟨rfl, rfl⟩
  rw [key.1, key.2]
  constructor
  · rintro rfl; exact ⟨rfl, rfl⟩
  · rintro y rfl
    refine ⟨_, tdiv_part scale y, fun hf => ⟨_, ?_, toInt_fits (by decide) hf⟩, fun hf => ?_, fun hf => ⟨_, ?_, toInt_fits (by decide) hf⟩, fun hf => ?_⟩
    · unfold truncate; exact if_pos hf
    · unfold truncate; exact if_neg hf
    · unfold truncate; exact if_pos hf
    · unfold truncate; exact if_neg hf

/-- -2.5 -/
example : real (.float 0xC0200000) = some (149, some (-(5 * 2 ^ 148))) := by decide +kernel

/-- C139: of no array but a string a number is made. -/
theorem array_undefined {x : Val} (h : x.type = 0) (hs : ∀ s, x ≠ .chars s) : (∀ b, castInt x ≠ .ok b) ∧ (∀ b, castLong x ≠ .ok b) ∧ (∀ b, castChar x ≠ .ok b) ∧
    (∀ b, castFloat x ≠ .ok b) ∧ ∀ b, castDouble x ≠ .ok b := by
  have key : ∀ {α : Type} (f : Val → Outcome α) (g : Bytes → Option α) (b : α), castTo f g x ≠ .ok b := by
    intro α f g b e
    have hb : ∀ o : Outcome Unit, (o >>= fun _ => (.ub .typePun : Outcome α)) ≠ .ok b := by
      intro o; cases o <;> intro e <;> cases e
    cases x <;> simp only [Val.type, reduceCtorEq, OfNat.ofNat_ne_zero, one_ne_zero] at h <;> first | exact hs _ rfl | exact hb _ e
  exact ⟨key _ _, key _ _, key _ _, key _ _, key _ _⟩

example : (Val.ints [1]).type = 0 ∧ ∀ s, Val.ints [1] ≠ .chars s := ⟨rfl, by intro s h; cases h⟩

/-- C139: a number is converted to a `char` with its value modulo 256, but a text to its first character that is not white space, not to the
    number it stands for. -/
theorem char_text (ws : Bytes) (hw : ∀ c ∈ ws, Blank c) (c : UInt8) (hc : ¬ Blank c) (rest : Bytes) :
    castChar (.chars (ws ++ c :: rest)) = .ok c ∧ castChar (.chars ws) = .thrown .ioFailure := by
  have h1 : (ws ++ c :: rest).dropWhile isspace = c :: rest := by
    rw [List.dropWhile_append_of_pos (fun c hc => (isspace_iff c).2 (hw c hc)), List.dropWhile_cons_of_neg (fun e => hc ((isspace_iff c).1 e))]
  have h2 : ws.dropWhile isspace = [] := List.dropWhile_eq_nil_iff.2 (fun c hc => (isspace_iff c).2 (hw c hc))
  constructor
  · unfold castChar castTo; simp only [h1, List.head?_cons]
  · unfold castChar castTo; simp only [h2, List.head?_nil]

theorem char_number : castChar (.int 7) = .ok 7 ∧ castChar (.chars [55]) = .ok 55 := by decide +kernel

/-- C139: a var that has the type already is not changed. -/
theorem same_type (c : UInt8) (i : BitVec 32) (l : BitVec 64) (f : BitVec 32) (d : BitVec 64) (p : BitVec 32 × BitVec 32) (q : BitVec 64 × BitVec 64) :
    castChar (.char c) = .ok c ∧ castInt (.int i) = .ok i ∧ castLong (.long l) = .ok l ∧ castFloat (.float f) = .ok f ∧ castDouble (.double d) = .ok d ∧
      castCFloat (.cfloat p.1 p.2) = .ok p ∧ castCDouble (.cdoubles [q]) = .ok q := by
  refine ⟨?_, ?_, ?_, rfl, rfl, rfl, rfl⟩
  · show Outcome.ok _ = _
    rw [BitVec.signExtend_eq]
  · show Outcome.ok _ = _
    rw [BitVec.signExtend_eq]
  · show Outcome.ok _ = _
    rw [BitVec.signExtend_eq]

end Libube.CastProps

#print axioms Libube.CastProps.text_partial
#print axioms Libube.CastProps.written
#print axioms Libube.CastProps.integer_partial
#print axioms Libube.CastProps.integer_lost
#print axioms Libube.CastProps.floating_partial
#print axioms Libube.CastProps.array_undefined
#print axioms Libube.CastProps.char_text
#print axioms Libube.CastProps.char_number
#print axioms Libube.CastProps.same_type

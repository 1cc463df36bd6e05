import Mathlib.Data.List.TakeWhile
import Mathlib.Data.Nat.Digits.Lemmas
import Verif.Model.Json
import Verif.Spec.Json

/-! # Lemmas about decimal text -/

namespace Libube.Json

open Libube Libube.CString Libube.JsonSpec

theorem isdigit_ofNat {d : Nat} (h : d < 10) : isdigit (UInt8.ofNat (48 + d)) = true := by
  have : ∀ d : Fin 10, isdigit (UInt8.ofNat (48 + d.val)) = true := by decide
  exact this ⟨d, h⟩

theorem digit_ofNat {d : Nat} (h : d < 10) : (UInt8.ofNat (48 + d)).toNat - 48 = d := by
  have : ∀ d : Fin 10, (UInt8.ofNat (48 + d.val)).toNat - 48 = d.val := by decide
  exact this ⟨d, h⟩

theorem showNat_digits (n : Nat) : ∀ c ∈ showNat n, isdigit c = true := by
  unfold showNat
  split
  · intro c hc; simp at hc; subst hc; decide
  · intro c hc
    simp only [List.mem_map, List.mem_reverse] at hc
    obtain ⟨d, hd, rfl⟩ := hc
    exact isdigit_ofNat (Nat.digits_lt_base (by omega) hd)

theorem showNat_ne_nil (n : Nat) : showNat n ≠ [] := by
  unfold showNat
  split
  · simp
  · rename_i h
    simp [Nat.digits_ne_nil_iff_ne_zero, h]

theorem digitsVal_reverse (ds : List Nat) (h : ∀ d ∈ ds, d < 10) :
    digitsVal (ds.reverse.map (fun d => UInt8.ofNat (48 + d))) = Nat.ofDigits 10 ds := by
  induction ds with
  | nil => rfl
  | cons d ds ih =>
    have ih := ih (fun x hx => h x (by simp [hx]))
    unfold digitsVal at ih ⊢
    simp only [List.reverse_cons, List.map_append, List.map_cons, List.map_nil, List.foldl_append,
      List.foldl_cons, List.foldl_nil, ih, digit_ofNat (h d (by simp)), Nat.ofDigits_cons]
    omega

theorem digitsVal_showNat (n : Nat) : digitsVal (showNat n) = n := by
  unfold showNat
  split
  · rename_i h; subst h; rfl
  · rw [digitsVal_reverse _ (fun d hd => Nat.digits_lt_base (by omega) hd), Nat.ofDigits_digits]

/-- Characters of integers are neither white space, delimiters nor quotes. -/
theorem isdigit_plain (c : UInt8) (h : isdigit c = true ∨ c = 45) : isspace c = false ∧ isDelim c = false ∧
    c ≠ 34 ∧ c ≠ 123 ∧ c ≠ 91 ∧ c ≠ 93 ∧ c ≠ 44 ∧ c ≠ 116 ∧ c ≠ 102 ∧ c ≠ 110 ∧ c ≠ 43 := by
  have : ∀ c : Fin 256, (isdigit (UInt8.ofNat c.val) = true ∨ UInt8.ofNat c.val = 45) →
      isspace (UInt8.ofNat c.val) = false ∧ isDelim (UInt8.ofNat c.val) = false ∧
    UInt8.ofNat c.val ≠ 34 ∧ UInt8.ofNat c.val ≠ 123 ∧ UInt8.ofNat c.val ≠ 91 ∧ UInt8.ofNat c.val ≠ 93 ∧
    UInt8.ofNat c.val ≠ 44 ∧ UInt8.ofNat c.val ≠ 116 ∧ UInt8.ofNat c.val ≠ 102 ∧ UInt8.ofNat c.val ≠ 110 ∧
    UInt8.ofNat c.val ≠ 43 := by
    set_option maxRecDepth 8000 in decide
  have h2 := this ⟨c.toNat, c.toNat_lt⟩
  simp only [UInt8.ofNat_toNat] at h2
  exact h2 h

theorem isdigit_ne (c : UInt8) (h : isdigit c = true) : c ≠ 45 ∧ c ≠ 43 := by
  refine ⟨?_, (isdigit_plain c (Or.inl h)).2.2.2.2.2.2.2.2.2.2⟩
  rintro rfl; revert h; decide

theorem showInt_chars (i : Int) : ∀ c ∈ showInt i, isdigit c = true ∨ c = 45 := by
  unfold showInt
  split
  · intro c hc
    rcases List.mem_cons.1 hc with rfl | hc
    · exact Or.inr rfl
    · exact Or.inl (showNat_digits _ c hc)
  · intro c hc; exact Or.inl (showNat_digits _ c hc)

theorem showInt_ne_nil (i : Int) : showInt i ≠ [] := by
  unfold showInt
  split
  · simp
  · exact showNat_ne_nil _

theorem takeWhile_digits (ds t : Bytes) (hd : ∀ c ∈ ds, isdigit c = true)
    (ht : ∀ c, t.head? = some c → isdigit c = false) : (ds ++ t).takeWhile isdigit = ds := by
  rw [List.takeWhile_append_of_pos hd]
  cases t with
  | nil => simp
  | cons c t => rw [List.takeWhile_cons_of_neg (by simp [ht c rfl])]; simp

/-- `>> n` on digits followed by something else. -/
theorem readNum_digits (w : Nat) (ds t : Bytes) (hd : ∀ c ∈ ds, isdigit c = true) (hne : ds ≠ [])
    (ht : ∀ c, t.head? = some c → isdigit c = false)
    (hlt : (digitsVal ds : Int) < 2 ^ (w - 1)) :
    readNum w (ds ++ t) = some (BitVec.ofInt w (digitsVal ds)) := by
  obtain ⟨c, ds', rfl⟩ := List.exists_cons_of_ne_nil hne
  have hc := hd c (by simp)
  have h1 : ((c :: ds') ++ t).dropWhile isspace = (c :: ds') ++ t := by
    rw [List.cons_append, List.dropWhile_cons_of_neg (by simp [(isdigit_plain c (Or.inl hc)).1])]
  unfold readNum
  simp only [h1]
  have h2 := isdigit_ne c hc
  have h3 := takeWhile_digits (c :: ds') t hd ht
  have h4 : splitSign ((c :: ds') ++ t) = (false, (c :: ds') ++ t) := by
    unfold splitSign
    split
    · rename_i h; simp only [List.cons_append, List.cons.injEq] at h; exact absurd h.1 h2.1
    · rename_i h; simp only [List.cons_append, List.cons.injEq] at h; exact absurd h.1 h2.2
    · rfl
  rw [h4]
  simp only [h3, Bool.false_eq_true, if_false]
  rw [if_neg (by simp), if_pos]
  exact ⟨by have : (0 : Int) ≤ (2 : Int) ^ (w - 1) := Int.pow_nonneg (by omega)
            omega, hlt⟩

theorem readNum_neg (w : Nat) (ds t : Bytes) (hd : ∀ c ∈ ds, isdigit c = true) (hne : ds ≠ [])
    (ht : ∀ c, t.head? = some c → isdigit c = false)
    (hlt : (digitsVal ds : Int) ≤ 2 ^ (w - 1)) :
    readNum w (45 :: ds ++ t) = some (BitVec.ofInt w (-(digitsVal ds : Int))) := by
  unfold readNum
  have h1 : (45 :: ds ++ t).dropWhile isspace = 45 :: (ds ++ t) := by
    rw [List.cons_append, List.dropWhile_cons_of_neg (by decide)]
  simp only [h1, splitSign, takeWhile_digits ds t hd ht]
  simp only [if_true]
  rw [if_neg hne, if_pos]
  have : (0 : Int) < (2 : Int) ^ (w - 1) := Int.pow_pos (by omega)
  exact ⟨by omega, by omega⟩

theorem readNum_showInt (l : BitVec 64) (t : Bytes) (ht : ∀ c, t.head? = some c → isdigit c = false) :
    readNum 64 (showInt l.toInt ++ t) = some l := by
  have hl := @BitVec.toInt_lt 64 l
  have hl' := @BitVec.le_toInt 64 l
  unfold showInt
  split
  · rename_i h
    rw [readNum_neg 64 (showNat _) t (showNat_digits _) (showNat_ne_nil _) ht]
    · rw [digitsVal_showNat]
      have : -(l.toInt.natAbs : Int) = l.toInt := by omega
      rw [this, BitVec.ofInt_toInt]
    · rw [digitsVal_showNat]; omega
  · rename_i h
    rw [readNum_digits 64 (showNat _) t (showNat_digits _) (showNat_ne_nil _) ht]
    · rw [digitsVal_showNat]
      have : (l.toInt.natAbs : Int) = l.toInt := by omega
      rw [this, BitVec.ofInt_toInt]
    · rw [digitsVal_showNat]; omega

theorem toNumber_of_read {s : Bytes} {l} (h : readNum 64 s = some l) : toNumber s = .long l := by
  unfold toNumber; rw [h]

theorem rawValue_of_read {s : Bytes} {l} (h : readNum 64 s = some l)
    (hc : ∀ c, s.head? = some c → c ≠ 116 ∧ c ≠ 102 ∧ c ≠ 110) : rawValue s = .ok (.long l) := by
  unfold rawValue
  rw [if_neg (by rintro rfl; exact (hc _ rfl).1 rfl), if_neg (by rintro rfl; exact (hc _ rfl).2.1 rfl),
    if_neg (by rintro rfl; exact (hc _ rfl).2.2 rfl)]
  simp only [toNumber_of_read h, Val.defined, if_true]

theorem showInt_head (i : Int) (t : Bytes) : ∃ c r, showInt i ++ t = c :: r ∧ (isdigit c = true ∨ c = 45) := by
  obtain ⟨c, r, h⟩ := List.exists_cons_of_ne_nil (showInt_ne_nil i)
  exact ⟨c, r ++ t, by rw [h]; rfl, showInt_chars i c (by rw [h]; simp)⟩

theorem rawValue_showInt (l : BitVec 64) : rawValue (showInt l.toInt) = .ok (.long l) := by
  have h := readNum_showInt l [] (by simp)
  rw [List.append_nil] at h
  refine rawValue_of_read h ?_
  intro c hc
  have hm : c ∈ showInt l.toInt := List.mem_of_head? hc
  have := isdigit_plain c (showInt_chars _ c hm)
  exact ⟨this.2.2.2.2.2.2.2.1, this.2.2.2.2.2.2.2.2.1, this.2.2.2.2.2.2.2.2.2.1⟩

theorem rawLoop_delim (acc s : Bytes) (d : UInt8) (t : Bytes) (hs : ∀ c ∈ s, isDelim c = false)
    (hd : isDelim d = true) : rawLoop acc (s ++ d :: t) = (acc ++ s, ⟨t, false⟩) := by
  induction s generalizing acc with
  | nil => simp [rawLoop, hd]
  | cons c s ih =>
    rw [List.cons_append, rawLoop, if_neg (by simp [hs c (by simp)]),
      ih (acc ++ [c]) (fun x hx => hs x (by simp [hx]))]
    simp

theorem rawLoop_end (acc s : Bytes) (hs : ∀ c ∈ s, isDelim c = false) :
    rawLoop acc s = (acc ++ s, ⟨[], true⟩) := by
  induction s generalizing acc with
  | nil => simp [rawLoop]
  | cons c s ih =>
    rw [rawLoop, if_neg (by simp [hs c (by simp)]), ih (acc ++ [c]) (fun x hx => hs x (by simp [hx]))]
    simp

end Libube.Json

import Verif.Model.Ctype
import Verif.Props.StringFns

/-! # C147: string functions and characters beyond ASCII -/

namespace Libube.CtypeProps

open Libube CString StringFns StringSpec

/-- The bytes that are no argument of `isspace` and the like: those from 128 to 254, if `char` is signed.  (255 is `EOF`.) -/
def Bad (signed : Bool) (b : UInt8) : Prop := signed = true ∧ 128 ≤ b.toNat ∧ b.toNat ≠ 255

theorem arg_bad {signed : Bool} {b : UInt8} (h : Bad signed b) : Ctype.arg signed b ≠ -1 ∧ ¬ (0 ≤ Ctype.arg signed b ∧ Ctype.arg signed b ≤ 255) := by
  obtain ⟨rfl, h1, h2⟩ := h
  have hb := b.toNat_lt
  have : Ctype.arg true b = (b.toNat : Int) - 256 := by
    unfold Ctype.arg
    rw [if_pos (by simpa [UInt8.le_iff_toNat_le] using h1)]
  rw [this]
  omega

theorem arg_good {signed : Bool} {b : UInt8} (h : ¬ Bad signed b) : Ctype.arg signed b = b.toNat ∨ Ctype.arg signed b = -1 ∧ b = 255 := by
  have hb := b.toNat_lt
  unfold Ctype.arg
  split
  · rename_i hs
    simp only [Bool.and_eq_true, decide_eq_true_eq, UInt8.le_iff_toNat_le] at hs
    have : b.toNat = 255 := by
      by_contra hc
      exact h ⟨hs.1, hs.2, hc⟩
    exact .inr ⟨by omega, UInt8.toNat_inj.1 this⟩
  · exact .inl rfl

theorem isspace_not_bad {signed : Bool} {b : UInt8} (h : CString.isspace b = true) : ¬ Bad signed b := fun hb => by
  rw [isspace_iff] at h
  obtain ⟨-, h2, -⟩ := hb
  unfold IsSpace at h
  omega

theorem isspace_bad {signed : Bool} {b : UInt8} (h : Bad signed b) : Ctype.isspace (Ctype.arg signed b) = .ub .outOfBounds := by
  obtain ⟨h1, h2⟩ := arg_bad h
  unfold Ctype.isspace
  rw [if_neg h1, if_neg h2]

theorem isspace_good {signed : Bool} {b : UInt8} (h : ¬ Bad signed b) : Ctype.isspace (Ctype.arg signed b) = .ok (CString.isspace b) := by
  rcases arg_good h with e | ⟨e, rfl⟩
  · have hb := b.toNat_lt
    unfold Ctype.isspace
    rw [e, if_neg (by omega), if_pos (by omega)]
    simp
  · rw [e]
    rfl

theorem mapped_bad {signed : Bool} {f : UInt8 → UInt8} {b : UInt8} (h : Bad signed b) : Ctype.mapped f (Ctype.arg signed b) = .ub .outOfBounds := by
  obtain ⟨h1, h2⟩ := arg_bad h
  unfold Ctype.mapped
  rw [if_neg h1, if_neg h2]

theorem mapped_good {signed : Bool} {f : UInt8 → UInt8} (hf : f 255 = 255) {b : UInt8} (h : ¬ Bad signed b) : Ctype.mapped f (Ctype.arg signed b) = .ok (f b) := by
  rcases arg_good h with e | ⟨e, rfl⟩
  · have hb := b.toNat_lt
    unfold Ctype.mapped
    rw [e, if_neg (by omega), if_pos (by omega)]
    simp
  · rw [e, hf]
    rfl

theorem mapLoop_good {signed : Bool} {f : UInt8 → UInt8} (hf : f 255 = 255) : ∀ s : Bytes, (∀ b ∈ s, ¬ Bad signed b) → Ctype.mapLoop signed f s = .ok (s.map f)
  | [], _ => rfl
  | b :: s, h => by
    simp only [Ctype.mapLoop, mapped_good hf (h b (by simp)), mapLoop_good hf s (fun c hc => h c (by simp [hc])), Outcome.bind_ok, List.map_cons]

theorem mapLoop_bad {signed : Bool} {f : UInt8 → UInt8} (hf : f 255 = 255) : ∀ s : Bytes, (∃ b ∈ s, Bad signed b) → Ctype.mapLoop signed f s = .ub .outOfBounds
  | [], h => by obtain ⟨b, hb, -⟩ := h; cases hb
  | b :: s, h => by
    by_cases hb : Bad signed b
    · simp only [Ctype.mapLoop, mapped_bad hb]
      rfl
    · have : ∃ c ∈ s, Bad signed c := by
        obtain ⟨c, hc, hc'⟩ := h
        rcases List.mem_cons.1 hc with rfl | hc
        · exact absurd hc' hb
        · exact ⟨c, hc, hc'⟩
      simp only [Ctype.mapLoop, mapped_good hf hb, mapLoop_bad hf s this, Outcome.bind_ok]
      rfl

/-- C147 for `toupper` and `tolower`, of texts without such characters.  Missing: the others (`case_undefined`). -/
theorem case_defined_partial (signed : Bool) (s : Bytes) (h : ∀ b ∈ s, ¬ Bad signed b) :
    (∃ r, Ctype.upper signed s = .ok r ∧ List.Forall₂ UpperOf s r) ∧ ∃ r, Ctype.lower signed s = .ok r ∧ List.Forall₂ LowerOf s r :=
  ⟨⟨StringFns.upper s, mapLoop_good (by decide) s h, (case_mapping s).1⟩, StringFns.lower s, mapLoop_good (by decide) s h, (case_mapping s).2.1⟩

/-- With any such character it is undefined. -/
theorem case_undefined (signed : Bool) (s : Bytes) (h : ∃ b ∈ s, Bad signed b) :
    Ctype.upper signed s = .ub .outOfBounds ∧ Ctype.lower signed s = .ub .outOfBounds :=
  ⟨mapLoop_bad (by decide) s h, mapLoop_bad (by decide) s h⟩

theorem spaces_good {signed : Bool} : ∀ s : Bytes, (∀ a c t, s = a ++ c :: t → (∀ b ∈ a, CString.isspace b = true) → ¬ Bad signed c) →
    Ctype.spaces signed s = .ok (s.takeWhile CString.isspace).length
  | [], _ => rfl
  | b :: s, h => by
    simp only [Ctype.spaces, isspace_good (h [] b s rfl (by simp)), Outcome.bind_ok]
    cases hb : CString.isspace b with
    | true =>
      rw [if_pos rfl, spaces_good s (fun a c t e ha => h (b :: a) c t (by simp [e]) (by
        intro x hx
        rcases List.mem_cons.1 hx with rfl | hx
        · exact hb
        · exact ha x hx))]
      simp [hb]
    | false => simp [hb]

theorem spaces_bad {signed : Bool} : ∀ a : Bytes, (∀ b ∈ a, CString.isspace b = true) → (c : UInt8) → Bad signed c → (t : Bytes) →
    Ctype.spaces signed (a ++ c :: t) = .ub .outOfBounds
  | [], _, c, hc, t => by
    simp only [List.nil_append, Ctype.spaces, isspace_bad hc]
    rfl
  | b :: a, h, c, hc, t => by
    have hb : ¬ Bad signed b := isspace_not_bad (h b (by simp))
    simp only [List.cons_append, Ctype.spaces, isspace_good hb, h b (by simp), Outcome.bind_ok, if_true, spaces_bad a (fun x hx => h x (by simp [hx])) c hc t]
    rfl

theorem others_good {signed : Bool} : ∀ s : Bytes, (∀ b ∈ s, ¬ Bad signed b) → Ctype.others signed s = .ok (s.takeWhile (fun b => !CString.isspace b)).length
  | [], _ => rfl
  | b :: s, h => by
    simp only [Ctype.others, isspace_good (h b (by simp)), Outcome.bind_ok]
    cases hb : CString.isspace b with
    | true => simp [hb]
    | false =>
      simp only [others_good s (fun c hc => h c (by simp [hc]))]
      simp [hb]

theorem take_while_length (f : UInt8 → Bool) : ∀ s : Bytes, s.take (s.takeWhile f).length = s.takeWhile f ∧ s.drop (s.takeWhile f).length = s.dropWhile f
  | [] => ⟨rfl, rfl⟩
  | b :: s => by
    cases hb : f b with
    | true => simp [hb, take_while_length f s]
    | false => simp [hb]

theorem wordsLoop_good {signed : Bool} (iMax : Int) : ∀ (fuel : Nat) (p : Bytes) (r : List Bytes), (∀ b ∈ p, ¬ Bad signed b) → p.length < fuel →
    Ctype.wordsLoop signed fuel p iMax r = .ok (StringFns.wordsLoop p iMax r)
  | 0, _, _, _, h => by omega
  | fuel + 1, p, r, h, hf => by
    rw [StringFns.wordsLoop]
    unfold Ctype.wordsLoop
    by_cases hp : p = []
    · rw [if_pos hp, dif_pos hp]
    · rw [if_neg hp, dif_neg hp]
      have hd := words_dec p hp
      have sub1 : ∀ b ∈ p.dropWhile (fun b => !CString.isspace b), b ∈ p := fun b hb => (List.dropWhile_suffix _).subset hb
      have sub2 : ∀ b ∈ (p.dropWhile (fun b => !CString.isspace b)).dropWhile CString.isspace, b ∈ p := fun b hb => sub1 b ((List.dropWhile_suffix _).subset hb)
      obtain ⟨t1, t2⟩ := take_while_length (fun b => !CString.isspace b) p
      rw [others_good p h, Outcome.bind_ok, t1, t2, spaces_good _ (fun a c t e _ hc => h c (sub1 c (by rw [e]; simp)) hc), Outcome.bind_ok]
      simp only
      rw [(take_while_length CString.isspace (p.dropWhile (fun b => !CString.isspace b))).2]
      generalize (if (p.takeWhile (fun b => !CString.isspace b)).length > 0 then r ++ [p.takeWhile (fun b => !CString.isspace b)] else r) = r'
      split
      · rfl
      · exact wordsLoop_good iMax fuel _ _ (fun b hb => h b (sub2 b hb)) (by omega)

/-- C147 for the split at white space, of texts without such characters: the words.  Missing: the others (`split_undefined`). -/
theorem split_defined_partial (signed : Bool) (s : Bytes) (hs : (0 : UInt8) ∉ s) (h : ∀ b ∈ s, ¬ Bad signed b) (fuel : Nat) (hf : s.length < fuel) :
    ∃ ws, Ctype.splitWords signed fuel s 0 = .ok ws ∧ Words s ws := by
  refine ⟨StringFns.splitWords s 0, ?_, (splitWords_words s hs).1⟩
  unfold Ctype.splitWords StringFns.splitWords
  rw [cstr_of_no_nul s hs, spaces_good s (fun a c t e _ => h c (by rw [e]; simp)), Outcome.bind_ok, (take_while_length CString.isspace s).2]
  have hsub : s.dropWhile CString.isspace <:+ s := List.dropWhile_suffix _
  exact wordsLoop_good 0 fuel _ [] (fun b hb => h b (hsub.subset hb)) (by have := hsub.length_le; omega)

/-- Either the loop over white space meets such a character, or some remain. -/
theorem spaces_or {signed : Bool} : ∀ s : Bytes, (∃ b ∈ s, Bad signed b) → Ctype.spaces signed s = .ub .outOfBounds ∨
    ∃ n, Ctype.spaces signed s = .ok n ∧ ∃ b ∈ s.drop n, Bad signed b
  | [], h => by obtain ⟨b, hb, -⟩ := h; cases hb
  | b :: s, h => by
    by_cases hb : Bad signed b
    · left
      simp only [Ctype.spaces, isspace_bad hb]
      rfl
    · have hs : ∃ c ∈ s, Bad signed c := by
        obtain ⟨c, hc, hc'⟩ := h
        rcases List.mem_cons.1 hc with rfl | hc
        · exact absurd hc' hb
        · exact ⟨c, hc, hc'⟩
      simp only [Ctype.spaces, isspace_good hb, Outcome.bind_ok]
      cases CString.isspace b with
      | true =>
        rcases spaces_or s hs with e | ⟨n, e, h'⟩
        · left; simp only [e, if_true]; rfl
        · right
          exact ⟨n + 1, by simp [e], by simpa using h'⟩
      | false =>
        right
        exact ⟨0, by simp, h⟩

theorem others_or {signed : Bool} : ∀ s : Bytes, (∃ b ∈ s, Bad signed b) → Ctype.others signed s = .ub .outOfBounds ∨
    ∃ n, Ctype.others signed s = .ok n ∧ ∃ b ∈ s.drop n, Bad signed b
  | [], h => by obtain ⟨b, hb, -⟩ := h; cases hb
  | b :: s, h => by
    by_cases hb : Bad signed b
    · left
      simp only [Ctype.others, isspace_bad hb]
      rfl
    · have hs : ∃ c ∈ s, Bad signed c := by
        obtain ⟨c, hc, hc'⟩ := h
        rcases List.mem_cons.1 hc with rfl | hc
        · exact absurd hc' hb
        · exact ⟨c, hc, hc'⟩
      simp only [Ctype.others, isspace_good hb, Outcome.bind_ok]
      cases CString.isspace b with
      | false =>
        rcases others_or s hs with e | ⟨n, e, h'⟩
        · left; simp [e]
        · right
          exact ⟨n + 1, by simp [e], by simpa using h'⟩
      | true =>
        right
        exact ⟨0, by simp, h⟩

theorem advance {signed : Bool} {s : Bytes} {n m : Nat} (hs : s ≠ []) (hn : Ctype.others signed s = .ok n) (hm : Ctype.spaces signed (s.drop n) = .ok m) : 0 < n + m := by
  match s, hs with
  | b :: s, _ =>
    cases n with
    | succ n => omega
    | zero =>
      by_cases hb : Bad signed b
      · simp only [Ctype.others, isspace_bad hb] at hn
        cases hn
      · simp only [Ctype.others, Ctype.spaces, List.drop_zero, isspace_good hb, Outcome.bind_ok] at hn hm
        cases hsp : CString.isspace b with
        | true =>
          rw [hsp, if_pos rfl] at hm
          cases hk : Ctype.spaces signed s with
          | ok k => rw [hk] at hm; cases hm; omega
          | _ => rw [hk] at hm; cases hm
        | false =>
          rw [hsp] at hn
          simp only [Bool.false_eq_true, if_false] at hn
          cases hk : Ctype.others signed s with
          | ok k => rw [hk] at hn; cases hn
          | _ => rw [hk] at hn; cases hn

theorem wordsLoop_bad {signed : Bool} : ∀ (fuel : Nat) (p : Bytes) (r : List Bytes), (∃ b ∈ p, Bad signed b) → p.length < fuel →
    Ctype.wordsLoop signed fuel p 0 r = .ub .outOfBounds
  | 0, _, _, _, h => by omega
  | fuel + 1, p, r, h, hf => by
    have hp : p ≠ [] := by
      rintro rfl
      obtain ⟨b, hb, -⟩ := h
      cases hb
    unfold Ctype.wordsLoop
    rw [if_neg hp]
    rcases others_or p h with e | ⟨n, e, h1⟩
    · rw [e]; rfl
    · rw [e, Outcome.bind_ok]
      simp only
      rcases spaces_or _ h1 with e' | ⟨m, e', h2⟩
      · rw [e']; rfl
      · rw [e', Outcome.bind_ok]
        simp only [ne_eq, not_true_eq_false, false_and, if_false]
        have ha := advance hp e e'
        have hl := List.length_pos_iff.2 hp
        exact wordsLoop_bad fuel _ _ h2 (by rw [List.length_drop, List.length_drop]; omega)

/-- With any such character the split is undefined. -/
theorem split_undefined (signed : Bool) (s : Bytes) (hs : (0 : UInt8) ∉ s) (h : ∃ b ∈ s, Bad signed b) (fuel : Nat) (hf : s.length < fuel) :
    Ctype.splitWords signed fuel s 0 = .ub .outOfBounds := by
  unfold Ctype.splitWords
  rw [cstr_of_no_nul s hs]
  rcases spaces_or s h with e | ⟨n, e, h1⟩
  · rw [e]; rfl
  · rw [e, Outcome.bind_ok]
    exact wordsLoop_bad fuel _ _ h1 (by rw [List.length_drop]; omega)

/-- C147 for `strip` in place: only the first and the last character other than white space matter.  Missing: others there (`strip_undefined`), and texts of white space
    only (`strip_whitespace_undefined`). -/
theorem strip_defined_partial (signed : Bool) (a b : Bytes) (c d : UInt8) (t u s : Bytes) (h1 : s = a ++ c :: t) (h2 : s = u ++ d :: b) (ha : ∀ x ∈ a, IsSpace x)
    (hb : ∀ x ∈ b, IsSpace x) (hc : ¬ IsSpace c) (hd : ¬ IsSpace d) (hc' : ¬ Bad signed c) (hd' : ¬ Bad signed d) :
    ∃ r, Ctype.strip signed s = .ok r ∧ Stripped s r := by
  obtain ⟨r, e, h⟩ := strip_in_place_partial s (.inr ⟨c, by rw [h1]; simp, hc⟩)
  refine ⟨r, ?_, h⟩
  have key : ∀ (a : Bytes) (c : UInt8) (t : Bytes), (∀ x ∈ a, IsSpace x) → ¬ IsSpace c → ¬ Bad signed c → ∃ n, Ctype.spaces signed (a ++ c :: t) = .ok n := by
    intro a c t ha hc hc'
    induction a with
    | nil =>
      have : CString.isspace c = false := by
        cases hx : CString.isspace c with
        | false => rfl
        | true => exact absurd ((isspace_iff c).1 hx) hc
      exact ⟨0, by simp [Ctype.spaces, isspace_good hc', this]⟩
    | cons x a ih =>
      obtain ⟨n, e⟩ := ih (fun y hy => ha y (by simp [hy]))
      have hx := (isspace_iff x).2 (ha x (by simp))
      refine ⟨n + 1, ?_⟩
      simp only [List.cons_append, Ctype.spaces, isspace_good (isspace_not_bad hx), hx, Outcome.bind_ok, if_true, e]
  obtain ⟨n, e1⟩ := key a c t ha hc hc'
  obtain ⟨m, e2⟩ := key b.reverse d u.reverse (fun x hx => hb x (by simpa using hx)) hd hd'
  have hr : s.reverse = b.reverse ++ d :: u.reverse := by rw [h2]; simp
  unfold Ctype.strip
  rw [hr, e2, h1, e1, Outcome.bind_ok, Outcome.bind_ok, ← h1]
  exact e

/-- If such a character comes first, but for white space, `strip` is undefined; the same at the end. -/
theorem strip_undefined (signed : Bool) (a : Bytes) (c : UInt8) (t : Bytes) (ha : ∀ x ∈ a, IsSpace x) (hc : Bad signed c) :
    Ctype.strip signed (a ++ c :: t) = .ub .outOfBounds ∧ Ctype.strip signed (t ++ c :: a) = .ub .outOfBounds := by
  have h1 : ∀ t, Ctype.spaces signed (a ++ c :: t) = .ub .outOfBounds := spaces_bad a (fun x hx => (isspace_iff x).2 (ha x hx)) c hc
  have h2 : Ctype.spaces signed (t ++ c :: a).reverse = .ub .outOfBounds := by
    rw [show (t ++ c :: a).reverse = a.reverse ++ c :: t.reverse by simp]
    exact spaces_bad a.reverse (fun x hx => (isspace_iff x).2 (ha x (by simpa using hx))) c hc _
  constructor
  · unfold Ctype.strip
    rw [h1]
    rfl
  · unfold Ctype.strip
    by_cases hb : ∃ b ∈ t ++ c :: a, Bad signed b
    · rcases spaces_or _ hb with e | ⟨n, e, -⟩
      · rw [e]; rfl
      · rw [e, h2]; rfl
    · exact absurd ⟨c, by simp, hc⟩ hb

/-- C147 in full where `char` is not signed: there are no such characters. -/
theorem unsigned_none (b : UInt8) : ¬ Bad false b := fun h => by cases h.1

/-- What one would expect. -/
def AllTexts (signed : Bool) : Prop := ∀ s : Bytes, (0 : UInt8) ∉ s → (∃ r, Ctype.upper signed s = .ok r) ∧ (∃ r, Ctype.lower signed s = .ok r) ∧
  (∀ fuel, s.length < fuel → ∃ ws, Ctype.splitWords signed fuel s 0 = .ok ws) ∧ ((∃ b ∈ s, ¬ IsSpace b) → ∃ r, Ctype.strip signed s = .ok r)

theorem unsigned_all : AllTexts false := fun s hs => by
  have hg : ∀ b ∈ s, ¬ Bad false b := fun b _ => unsigned_none b
  obtain ⟨⟨r1, e1, -⟩, r2, e2, -⟩ := case_defined_partial false s hg
  refine ⟨⟨r1, e1⟩, ⟨r2, e2⟩, fun fuel hf => ?_, fun h => ?_⟩
  · obtain ⟨ws, e, -⟩ := split_defined_partial false s hs hg fuel hf
    exact ⟨ws, e⟩
  · obtain ⟨r, e, -⟩ := strip_in_place_partial s (.inr h)
    refine ⟨r, ?_⟩
    unfold Ctype.strip
    rw [spaces_good s (fun _ _ _ _ _ => unsigned_none _), spaces_good s.reverse (fun _ _ _ _ _ => unsigned_none _), Outcome.bind_ok, Outcome.bind_ok]
    exact e

/-- C147 fails where `char` is signed, as on x86: "é" in UTF-8. -/
theorem signed_not_all : ¬ AllTexts true := fun h => by
  obtain ⟨⟨r, e⟩, -⟩ := h [195, 169] (by decide)
  rw [(case_undefined true [195, 169] ⟨195, by simp, rfl, by decide, by decide⟩).1] at e
  cases e

-- " a b" and "é a"
example : (∀ b ∈ ([32, 97, 32, 98] : Bytes), ¬ Bad true b) ∧ Ctype.upper true [32, 97, 32, 98] = .ok [32, 65, 32, 66] ∧
    Ctype.splitWords true 5 [32, 97, 32, 98] 0 = .ok [[97], [98]] ∧ Ctype.strip true [32, 97, 32, 98] = .ok [97, 32, 98] := by
  refine ⟨?_, by decide, by decide, by decide⟩
  intro b hb hc
  obtain ⟨-, h, -⟩ := hc
  simp only [List.mem_cons, List.not_mem_nil, or_false] at hb
  rcases hb with rfl | rfl | rfl | rfl <;> exact absurd h (by decide)

example : Ctype.upper true [195, 169, 32, 97] = .ub .outOfBounds ∧ Ctype.splitWords true 5 [195, 169, 32, 97] 0 = .ub .outOfBounds ∧
    Ctype.strip true [195, 169, 32, 97] = .ub .outOfBounds ∧ Ctype.upper false [195, 169, 32, 97] = .ok [195, 169, 32, 65] ∧
    Ctype.strip true [97, 195, 169, 97] = .ok [97, 195, 169, 97] := ⟨by decide, by decide, by decide, by decide, by decide⟩

example : ∃ b ∈ ([195, 169, 32, 97] : Bytes), Bad true b := ⟨195, by simp, rfl, by decide, by decide⟩

#print axioms case_defined_partial
#print axioms case_undefined
#print axioms split_defined_partial
#print axioms split_undefined
#print axioms strip_defined_partial
#print axioms strip_undefined
#print axioms unsigned_all
#print axioms signed_not_all

end Libube.CtypeProps

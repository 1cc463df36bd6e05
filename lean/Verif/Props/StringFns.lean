import Verif.Lemmas.StringFns
import Mathlib.Data.List.Forall2

/-! # C05-C13, C76: string functions

`fuel` is the number of loop iterations the model may perform; a theorem that holds for every
sufficiently large fuel says that the C++ loop terminates with that result. -/

namespace Libube.StringFns

open Libube Libube.CString Libube.StringSpec

/-- C05: for every NUL-free string and every NUL-free, non-empty separator the unlimited split
    returns and joining its result restores the string. -/
theorem split_then_join (s sep : Bytes) (hs : (0 : UInt8) ∉ s) (hsep0 : (0 : UInt8) ∉ sep)
    (hsep : sep ≠ []) :
    ∃ ps, (∀ fuel, s.length < fuel → split fuel s sep 0 = .ok ps) ∧ join ps sep = s := by
  obtain ⟨ps, h1, h2⟩ := split_eq s sep (s.length + 1) 0 hs hsep0 hsep (by omega)
  refine ⟨ps, ?_, ?_⟩
  · intro fuel hf
    obtain ⟨qs, h3, h4⟩ := split_eq s sep fuel 0 hs hsep0 hsep hf
    rw [h3, h2.unique h4]
  · rw [join_eq_joined, cstr_of_no_nul sep hsep0]; exact h2.join

-- "a::b:" split at "::"
example : (0 : UInt8) ∉ ([97, 58, 58, 98, 58] : Bytes) ∧ (0 : UInt8) ∉ ([58, 58] : Bytes) ∧
    ([58, 58] : Bytes) ≠ [] ∧
    split 10 [97, 58, 58, 98, 58] [58, 58] 0 = .ok [[97], [98, 58]] := by decide +kernel

/-- C05, C06 in full: the result of the unlimited split is the list of pieces obtained by cutting
    at the first, second, ... non-overlapping occurrence of the separator. -/
theorem split_spec (s sep : Bytes) (hs : (0 : UInt8) ∉ s) (hsep0 : (0 : UInt8) ∉ sep)
    (hsep : sep ≠ []) (fuel : Nat) (hf : s.length < fuel) :
    ∃ ps, split fuel s sep 0 = .ok ps ∧ Splits sep none s ps := by
  simpa using split_eq s sep fuel 0 hs hsep0 hsep hf

example : (0 : UInt8) ∉ ([97, 97, 97] : Bytes) ∧ split 4 [97, 97, 97] [97, 97] 0 = .ok [[], [97]] := by
  decide +kernel

/-- C06: no piece contains the separator. -/
theorem split_pieces_no_separator (s sep : Bytes) (hs : (0 : UInt8) ∉ s)
    (hsep0 : (0 : UInt8) ∉ sep) (hsep : sep ≠ []) (fuel : Nat) (hf : s.length < fuel) :
    ∃ ps, split fuel s sep 0 = .ok ps ∧ ∀ p ∈ ps, ¬ Contains p sep := by
  obtain ⟨ps, h1, h2⟩ := split_spec s sep hs hsep0 hsep fuel hf
  exact ⟨ps, h1, h2.no_sep hsep⟩

example : Contains [97, 58, 98] [58] := ⟨[97], [98], rfl⟩

/-- C07: a limit `m ≥ 1` gives at most `m` pieces, all but the last are the first pieces of
    the unlimited split, joining restores the string, and as many cuts are made as the limit
    allows (`Splits` with `m - 1` cuts determines the pieces). -/
theorem split_limit (s sep : Bytes) (hs : (0 : UInt8) ∉ s) (hsep0 : (0 : UInt8) ∉ sep)
    (hsep : sep ≠ []) (m : Nat) (hm : 1 ≤ m) (fuel : Nat) (hf : s.length < fuel) :
    ∃ ps qs, split fuel s sep (m : Int) = .ok ps ∧ split fuel s sep 0 = .ok qs ∧
      ps.length ≤ m ∧ ps.dropLast <+: qs ∧ join ps sep = s ∧ Splits sep (some (m - 1)) s ps := by
  obtain ⟨ps, h1, h2⟩ := split_eq s sep fuel m hs hsep0 hsep hf
  obtain ⟨qs, h3, h4⟩ := split_spec s sep hs hsep0 hsep fuel hf
  have hsp : Splits sep (some (m - 1)) s ps := by
    rw [if_neg (by omega)] at h2
    by_cases h : (m : Int) = 1
    · rw [if_pos h] at h2
      have : m - 1 = 0 := by omega
      rw [this]; exact h2
    · rw [if_neg h] at h2
      have : (max ((m : Int) - 1) 1).toNat = m - 1 := by omega
      rw [this] at h2; exact h2
  refine ⟨ps, qs, h1, h3, ?_, hsp.limited_prefix h4, ?_, hsp⟩
  · have := hsp.length_le; omega
  · rw [join_eq_joined, cstr_of_no_nul sep hsep0]; exact hsp.join

example : split 10 [97, 58, 98, 58, 99] [58] 2 = .ok [[97], [98, 58, 99]] := by decide +kernel

/-- C08 for non-empty separators: split returns, with any limit (also a negative one).
    Missing for the full claim: the empty separator (`split_empty_separator_diverges`). -/
theorem split_terminates_partial (s sep : Bytes) (hs : (0 : UInt8) ∉ s)
    (hsep0 : (0 : UInt8) ∉ sep) (hsep : sep ≠ []) (iMax : Int) (fuel : Nat)
    (hf : s.length < fuel) : ∃ ps, split fuel s sep iMax = .ok ps := by
  obtain ⟨ps, h, _⟩ := split_eq s sep fuel iMax hs hsep0 hsep hf
  exact ⟨ps, h⟩

example : (0 : UInt8) ∉ ([97] : Bytes) ∧ ([58] : Bytes) ≠ [] ∧ ([97] : Bytes).length < 2 := by decide

/-- C08 fails for the empty separator: however many iterations are allowed, the unlimited split
    of any string at the empty string does not return. -/
theorem split_empty_separator_diverges (s : Bytes) (fuel : Nat) : split fuel s [] 0 = .diverge := by
  have h : ∀ (fuel : Nat) (s : Bytes) (r : List Bytes), splitLoop fuel s [] 0 r = .diverge := by
    intro fuel
    induction fuel with
    | zero => intros; rfl
    | succ n ih =>
      intro s r
      have : strstr s [] = some 0 := by unfold strstr; simp
      simp [splitLoop, this, ih]
  unfold split
  have : cstr [] = [] := rfl
  simp [this, h]

/-- C09: splitting what was joined with a one-character separator that occurs in no element gives
    the list back. -/
theorem join_then_split (xs : List Bytes) (c : UInt8) (hc : c ≠ 0) (hne : xs ≠ [])
    (hx : ∀ x ∈ xs, c ∉ x ∧ (0 : UInt8) ∉ x) (fuel : Nat)
    (hf : (join xs [c]).length < fuel) : split fuel (join xs [c]) [c] 0 = .ok xs := by
  have hc0 : (0 : UInt8) ∉ [c] := by simpa using hc.symm
  have hj : join xs [c] = joined [c] xs := by rw [join_eq_joined, cstr_of_no_nul _ hc0]
  have h0 : (0 : UInt8) ∉ join xs [c] := by
    rw [hj]
    obtain ⟨x, xs, rfl⟩ := List.exists_cons_of_ne_nil hne
    rw [joined_cons]
    simp only [List.mem_append, List.mem_flatMap, not_or]
    refine ⟨(hx x (by simp)).2, ?_⟩
    rintro ⟨y, hy, h | h⟩
    · exact hc0 h
    · exact (hx y (by simp [hy])).2 h
  obtain ⟨ps, h1, h2⟩ := split_spec _ [c] h0 hc0 (by simp) fuel hf
  rw [h1]
  congr 1
  refine h2.unique ?_
  rw [hj]
  clear h1 h2 hf h0 hj hc0
  have first : ∀ (p rest : Bytes), c ∉ p → FirstAt (p ++ [c] ++ rest) [c] p rest := by
    intro p rest hp
    refine ⟨rfl, ?_⟩
    intro a b hab
    by_contra hlt
    have hlt : a.length < p.length := by omega
    have h1 : (p ++ [c] ++ rest)[a.length]? = some p[a.length] := by
      rw [List.append_assoc, List.getElem?_append_left hlt]; simp [hlt]
    have h2 : (a ++ [c] ++ b)[a.length]? = some c := by simp
    rw [hab, h2] at h1
    injection h1 with h1
    exact hp (h1 ▸ List.getElem_mem hlt)
  induction xs with
  | nil => exact absurd rfl hne
  | cons x xs ih =>
    cases xs with
    | nil =>
      refine .whole _ _ ?_
      rintro ⟨a, b, hab⟩
      simp only [joined] at hab
      exact (hx x (by simp)).1 (by rw [hab]; simp)
    | cons y ys =>
      rw [joined]
      exact .cut _ _ _ _ _ (by simp) (first _ _ (hx x (by simp)).1)
        (ih (by simp) (fun z hz => hx z (by simp only [List.mem_cons] at hz ⊢; tauto)))

example : join [[97], [], [98, 99]] [44] = [97, 44, 44, 98, 99] ∧
    split 6 [97, 44, 44, 98, 99] [44] 0 = .ok [[97], [], [98, 99]] := by decide +kernel

/-- C10: the white space split returns exactly the maximal runs of non-space characters, in
    order; each is non-empty and free of white space, and together they are the string without
    its white space. -/
theorem splitWords_words (s : Bytes) (hs : (0 : UInt8) ∉ s) :
    Words s (splitWords s 0) ∧
    (∀ w ∈ splitWords s 0, w ≠ [] ∧ ∀ b ∈ w, ¬ IsSpace b) ∧
    (splitWords s 0).flatten = s.filter (fun b => decide (¬ IsSpace b)) := by
  have h := splitWords_spec s 0
  rw [if_pos rfl, cstr_of_no_nul s hs] at h
  have h : Words s (splitWords s 0) := h
  refine ⟨h, WordsMax.words_ok h, ?_⟩
  rw [← WordsMax.flatten h]
  apply List.filter_congr
  intro b _
  have := isspace_iff b
  cases hb : isspace b <;> simp_all

example : splitWords [32, 97, 98, 9, 10, 99, 32] 0 = [[97, 98], [99]] := by
  simp [splitWords, cstr, wordsLoop, isspace]

/-- C11 for limits of at least two: at most `m` pieces, which are the words of the unlimited
    split, except that the last piece holds everything from the `m`-th word on.
    Missing for the full claim: the limit 1 (`splitWords_limit_one_exceeded`). -/
theorem splitWords_limit_partial (s : Bytes) (hs : (0 : UInt8) ∉ s) (m : Nat) (hm : 2 ≤ m) :
    (splitWords s m).length ≤ m ∧ (splitWords s m).dropLast <+: splitWords s 0 ∧
    ((splitWords s m).length < m → splitWords s m = splitWords s 0) ∧
    WordsMax (some (m - 1)) s (splitWords s m) := by
  have h := splitWords_spec s m
  rw [if_neg (by omega), cstr_of_no_nul s hs] at h
  have he : (max ((m : Int) - 1) 1).toNat = m - 1 := by omega
  rw [he] at h
  have h' := (splitWords_words s hs).1
  obtain ⟨h1, h2⟩ := h.limited_prefix h'
  refine ⟨?_, h1, fun hl => h2 (by omega), h⟩
  have := h.length_le; omega

example : splitWords [97, 32, 98, 32, 99, 32] 2 = [[97], [98, 32, 99, 32]] := by
  simp [splitWords, cstr, wordsLoop, isspace]

/-- C11 fails for the limit 1: "a b" is returned in two pieces. -/
theorem splitWords_limit_one_exceeded :
    ∃ s : Bytes, (0 : UInt8) ∉ s ∧ ¬ (splitWords s 1).length ≤ 1 :=
  ⟨[97, 32, 98], by decide, by simp [splitWords, cstr, wordsLoop, isspace]⟩

/-- C12 for strings that are empty or have a character that is not white space: in-place strip
    removes exactly the surrounding white space.
    Missing for the full claim: non-empty strings of white space only
    (`strip_whitespace_undefined`). -/
theorem strip_in_place_partial (s : Bytes) (hs : s = [] ∨ ∃ b ∈ s, ¬ IsSpace b) :
    ∃ r, stripInPlace s = .ok r ∧ Stripped s r := by
  rcases hs with rfl | hs
  · exact ⟨[], by decide, ⟨[], [], by simp⟩, by simp, by simp⟩
  · obtain ⟨a, r, b, h1, h2, h3, h4, h5, h6, h7⟩ := strip_decomp s hs
    exact ⟨r, stripInPlace_eq s a r b h1 h2 h3, ⟨a, b, h1, h4, h5⟩, h6, h7⟩

example : (∃ b ∈ ([32, 97, 32, 98, 9, 10] : Bytes), ¬ IsSpace b) ∧
    stripInPlace [32, 97, 32, 98, 9, 10] = .ok [97, 32, 98] :=
  ⟨⟨97, by simp, by unfold IsSpace; decide⟩, by decide⟩

/-- C12 fails for every non-empty string of white space: `memmove` is called with a negative
    count. -/
theorem strip_whitespace_undefined (s : Bytes) (hne : s ≠ []) (hs : ∀ b ∈ s, IsSpace b) :
    stripInPlace s = .ub .outOfBounds := by
  have h1 : s.takeWhile isspace = s := by
    rw [List.takeWhile_eq_self_iff]
    intro b hb; rw [isspace_iff]; exact hs b hb
  have h2 : s.reverse.takeWhile isspace = s.reverse := by
    rw [List.takeWhile_eq_self_iff]
    intro b hb; rw [isspace_iff]; exact hs b (by simpa using hb)
  have := List.length_pos_iff.2 hne
  unfold stripInPlace
  simp only [h1, h2, List.length_reverse]
  rw [if_pos ⟨by omega, by omega⟩]

example : ([32, 32] : Bytes) ≠ [] ∧ ∀ b ∈ ([32, 32] : Bytes), IsSpace b := by
  refine ⟨by decide, ?_⟩
  intro b hb; simp at hb; subst hb; unfold IsSpace; decide

/-- C76 fails: the out-of-place strip of any string with a character that is not white space
    writes to memory that has been freed. -/
theorem strip_out_of_place_use_after_free (s : Bytes) (hs : ∃ b ∈ s, ¬ IsSpace b) :
    stripOutOfPlace s = .ub .useAfterFree := by
  obtain ⟨a, r, b, h1, h2, h3, h4, h5, h6, h7⟩ := strip_decomp s hs
  have hn : ((s.length : Int) - (s.takeWhile isspace).length - (s.reverse.takeWhile isspace).length)
      = r.length := by
    rw [← h2, ← h3, h1]; simp
  have hr : r ≠ [] := by
    rintro rfl
    obtain ⟨c, hc, hcs⟩ := hs
    rw [h1] at hc
    simp only [List.append_nil, List.mem_append] at hc
    rcases hc with hc | hc
    · exact hcs (h4 c hc)
    · exact hcs (h5 c hc)
  have := List.length_pos_iff.2 hr
  unfold stripOutOfPlace
  simp only [hn]
  rw [if_neg (by omega), if_pos (by omega)]

example : ∃ b ∈ ([32, 97] : Bytes), ¬ IsSpace b := ⟨97, by simp, by unfold IsSpace; decide⟩

/-- C76, what is left of the claim: only the empty string is stripped out of place without
    undefined behaviour or a failed assertion. -/
theorem strip_out_of_place_partial (s r : Bytes) :
    stripOutOfPlace s = .ok r ↔ s = [] ∧ r = [] := by
  constructor
  · intro h
    by_cases hs : ∃ b ∈ s, ¬ IsSpace b
    · rw [strip_out_of_place_use_after_free s hs] at h; simp at h
    · have hs : ∀ b ∈ s, IsSpace b := by
        intro b hb; by_contra hc; exact hs ⟨b, hb, hc⟩
      have h1 : s.takeWhile isspace = s := by
        rw [List.takeWhile_eq_self_iff]
        intro b hb; rw [isspace_iff]; exact hs b hb
      have h2 : s.reverse.takeWhile isspace = s.reverse := by
        rw [List.takeWhile_eq_self_iff]
        intro b hb; rw [isspace_iff]; exact hs b (by simpa using hb)
      unfold stripOutOfPlace at h
      simp only [h1, h2, List.length_reverse] at h
      by_cases hl : s.length = 0
      · have hs0 := List.eq_nil_of_length_eq_zero hl
        subst hs0
        refine ⟨rfl, ?_⟩
        simpa using h.symm
      · rw [if_pos (by omega)] at h; simp at h
  · rintro ⟨rfl, rfl⟩; decide

/-- Specification of upper casing a byte: the 26 ASCII letters a-z map to A-Z. -/
def UpperOf (b c : UInt8) : Prop :=
  if 'a'.toNat ≤ b.toNat ∧ b.toNat ≤ 'z'.toNat then c.toNat + 32 = b.toNat else c = b

/-- Specification of lower casing a byte. -/
def LowerOf (b c : UInt8) : Prop :=
  if 'A'.toNat ≤ b.toNat ∧ b.toNat ≤ 'Z'.toNat then c.toNat = b.toNat + 32 else c = b

theorem toupper_spec (b : UInt8) : UpperOf b (CString.toupper b) := by
  unfold UpperOf CString.toupper
  have e1 : (97 ≤ b ∧ b ≤ 122) ↔ ('a'.toNat ≤ b.toNat ∧ b.toNat ≤ 'z'.toNat) := by
    rw [UInt8.le_iff_toNat_le, UInt8.le_iff_toNat_le]; rfl
  by_cases h : 97 ≤ b ∧ b ≤ 122
  · rw [if_pos (e1.1 h), if_pos h]
    have h' := e1.1 h
    rw [UInt8.toNat_sub_of_le _ _ (by rw [UInt8.le_iff_toNat_le]; exact le_trans (by decide) h'.1)]
    have : (32 : UInt8).toNat = 32 := rfl
    have : 'a'.toNat = 97 := rfl
    omega
  · rw [if_neg (fun hc => h (e1.2 hc)), if_neg h]

theorem tolower_spec (b : UInt8) : LowerOf b (CString.tolower b) := by
  unfold LowerOf CString.tolower
  have e1 : (65 ≤ b ∧ b ≤ 90) ↔ ('A'.toNat ≤ b.toNat ∧ b.toNat ≤ 'Z'.toNat) := by
    rw [UInt8.le_iff_toNat_le, UInt8.le_iff_toNat_le]; rfl
  by_cases h : 65 ≤ b ∧ b ≤ 90
  · rw [if_pos (e1.1 h), if_pos h]
    have h' := e1.1 h
    have : 'Z'.toNat = 90 := rfl
    rw [UInt8.toNat_add]
    have : (32 : UInt8).toNat = 32 := rfl
    omega
  · rw [if_neg (fun hc => h (e1.2 hc)), if_neg h]

set_option maxRecDepth 4000 in
theorem case_bytes (b : UInt8) :
    CString.toupper (CString.toupper b) = CString.toupper b ∧
    CString.tolower (CString.tolower b) = CString.tolower b ∧
    CString.toupper (CString.tolower b) = CString.toupper b ∧
    CString.tolower (CString.toupper b) = CString.tolower b := by
  have h : ∀ n : Fin 256,
    CString.toupper (CString.toupper (UInt8.ofNat n)) = CString.toupper (UInt8.ofNat n) ∧
    CString.tolower (CString.tolower (UInt8.ofNat n)) = CString.tolower (UInt8.ofNat n) ∧
    CString.toupper (CString.tolower (UInt8.ofNat n)) = CString.toupper (UInt8.ofNat n) ∧
    CString.tolower (CString.toupper (UInt8.ofNat n)) = CString.tolower (UInt8.ofNat n) := by decide
  have := h ⟨b.toNat, b.toNat_lt⟩
  simpa using this

/-- C13: case mapping works byte by byte as specified, is idempotent, and the last mapping
    applied wins. -/
theorem case_mapping (s : Bytes) :
    List.Forall₂ UpperOf s (upper s) ∧ List.Forall₂ LowerOf s (lower s) ∧
    upper (upper s) = upper s ∧ lower (lower s) = lower s ∧
    upper (lower s) = upper s ∧ lower (upper s) = lower s := by
  refine ⟨?_, ?_, ?_, ?_, ?_, ?_⟩
  · unfold upper
    rw [List.forall₂_map_right_iff, List.forall₂_same]
    exact fun b _ => toupper_spec b
  · unfold lower
    rw [List.forall₂_map_right_iff, List.forall₂_same]
    exact fun b _ => tolower_spec b
  all_goals
    simp only [upper, lower, List.map_map]
    apply List.map_congr_left
    intro b _
    have := case_bytes b
    simp only [Function.comp]
    tauto

#print axioms split_then_join
#print axioms split_spec
#print axioms split_pieces_no_separator
#print axioms split_limit
#print axioms split_terminates_partial
#print axioms split_empty_separator_diverges
#print axioms join_then_split
#print axioms splitWords_words
#print axioms splitWords_limit_partial
#print axioms splitWords_limit_one_exceeded
#print axioms strip_in_place_partial
#print axioms strip_whitespace_undefined
#print axioms strip_out_of_place_use_after_free
#print axioms strip_out_of_place_partial
#print axioms case_mapping

end Libube.StringFns

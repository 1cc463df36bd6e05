import Verif.Lemmas.Utf8

/-! # C03, C04: UTF-8 length -/

namespace Libube.Utf8

open Libube

/-- C04: on every byte string the length function returns without reading past the terminating
    NUL (any such read would be the outcome `ub outOfBounds`); it returns `n` exactly if the
    string consists of `n` groups of a lead byte and the continuation bytes it announces. -/
theorem len_eq_iff (s : List UInt8) (n : Nat) : len s = .ok (n : Int) ↔ Grouped s n := by
  have h := lenLoop_spec s [] 0
  simp only [List.nil_append, List.length_nil, Nat.zero_add] at h
  unfold len
  rcases h with ⟨m, hm, he⟩ | ⟨hno, he⟩
  · rw [he]
    constructor
    · intro h
      have : (m : Int) = n := by simpa using h
      have : m = n := by omega
      subst this; exact hm
    · intro h; rw [hm.unique h]
  · rw [he]
    constructor
    · intro h
      injection h with h
      omega
    · intro h; exact absurd ⟨n, h⟩ hno

/-- C04: it returns -1 exactly if there is no such grouping. -/
theorem len_neg_iff (s : List UInt8) : len s = .ok (-1) ↔ ¬ ∃ n, Grouped s n := by
  have h := lenLoop_spec s [] 0
  simp only [List.nil_append, List.length_nil, Nat.zero_add] at h
  unfold len
  rcases h with ⟨m, hm, he⟩ | ⟨hno, he⟩
  · rw [he]
    constructor
    · intro h
      injection h with h
      omega
    · intro h; exact absurd ⟨m, hm⟩ h
  · rw [he]; simp only [true_iff]; exact hno

/-- C04: no other outcome is possible, in particular no out-of-bounds read. -/
theorem len_total (s : List UInt8) : len s = .ok (-1) ∨ ∃ n : Nat, len s = .ok (n : Int) := by
  by_cases h : ∃ n, Grouped s n
  · obtain ⟨n, hn⟩ := h
    exact Or.inr ⟨n, (len_eq_iff s n).2 hn⟩
  · exact Or.inl ((len_neg_iff s).2 h)

-- a truncated three byte sequence at the very end
example : ¬ ∃ n, Grouped [0x61, 0xE2, 0x82] n := by
  rw [← len_neg_iff]; decide +kernel

example : Grouped [0x61, 0xE2, 0x82, 0xAC] 2 :=
  .cons [0x61] _ 1 (.one _ (by decide))
    (.cons [0xE2, 0x82, 0xAC] [] 0
      (.three _ _ _ (by decide) (by decide) ⟨by decide, by decide⟩ ⟨by decide, by decide⟩) .nil)

/-- C03: the length of the UTF-8 encoding (the encoder of Lean's standard library) of a list of
    Unicode scalar values is the length of the list. -/
theorem len_counts_code_points (cs : List Char) :
    len (cs.flatMap String.utf8EncodeChar) = .ok (cs.length : Int) := by
  rw [len_eq_iff]
  induction cs with
  | nil => exact .nil
  | cons c cs ih => exact .cons _ _ _ (encode_isGroup c) ih

example : ['a', 'é', '€', '𝄞'].flatMap String.utf8EncodeChar =
    [0x61, 0xC3, 0xA9, 0xE2, 0x82, 0xAC, 0xF0, 0x9D, 0x84, 0x9E] := by decide +kernel

#print axioms len_eq_iff
#print axioms len_neg_iff
#print axioms len_total
#print axioms len_counts_code_points

end Libube.Utf8

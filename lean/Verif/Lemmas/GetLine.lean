import Verif.Model.GetLine
import Verif.Spec.GetLine

/-! # Lemmas: reading lines -/

namespace Libube.GetLine

open Libube Libube.CString Libube.LineSpec

theorem length_resize (fill : UInt8) (buf : Bytes) (n : Nat) :
    (resizeChars fill buf n).length = n := by
  simp [resizeChars]; omega

theorem take_resize (fill : UInt8) (buf : Bytes) (n m : Nat) (h : m ≤ buf.length) (h' : m ≤ n) :
    (resizeChars fill buf n).take m = buf.take m := by
  unfold resizeChars
  rw [List.take_append_of_le_length (by simp; omega), List.take_take, Nat.min_eq_left h']

theorem store_ok {buf : Bytes} {read : Nat} {c : UInt8} (h : read < buf.length) :
    store buf read c = .ok (buf.set read c) := by simp [store, h]

theorem take_set_succ (buf : Bytes) (read : Nat) (c : UInt8) (h : read < buf.length) :
    (buf.set read c).take (read + 1) = buf.take read ++ [c] := by
  rw [List.take_add_one, List.getElem?_set_self h, List.take_set_of_le (Nat.le_refl _)]
  rfl

theorem grow_spec (fill : UInt8) (buf : Bytes) (read size : Nat) (h1 : buf.length = size)
    (h2 : read ≤ size) :
    (grow fill buf read size).1.length = (grow fill buf read size).2 ∧
    read < (grow fill buf read size).2 ∧
    (grow fill buf read size).1.take read = buf.take read := by
  unfold grow
  by_cases h : read = size
  · simp only [h, ↓reduceIte, length_resize, true_and]
    exact ⟨by omega, take_resize _ _ _ _ (by omega) (by omega)⟩
  · simp only [h, ↓reduceIte]
    exact ⟨h1, by omega, trivial⟩

/-- a line followed by a newline -/
theorem loop_line (fill : UInt8) (l rest : Bytes) (hl : (10 : UInt8) ∉ l) (buf : Bytes)
    (read size : Nat) (h1 : buf.length = size) (h2 : read < size) :
    ∃ buf', loop fill buf read size (l ++ 10 :: rest) = .ok (buf', read + l.length, rest) ∧
      buf'.take (read + l.length) = buf.take read ++ l ∧ read + l.length ≤ buf'.length := by
  induction l generalizing buf read size with
  | nil => exact ⟨buf, by simp [loop], by simp, by simp; omega⟩
  | cons c l ih =>
    simp only [List.mem_cons, not_or] at hl
    have hc : c ≠ 10 := fun h => hl.1 h.symm
    have hb : (buf.set read c).length = size := by simpa using h1
    obtain ⟨g1, g2, g3⟩ := grow_spec fill (buf.set read c) (read + 1) size hb (by omega)
    obtain ⟨buf', e1, e2, e3⟩ := ih hl.2 _ _ _ g1 g2
    refine ⟨buf', ?_, ?_, ?_⟩
    · simp only [List.cons_append, loop, hc, ↓reduceIte, store_ok (h1 ▸ h2), Outcome.bind_ok, e1,
        List.length_cons]
      congr 3; omega
    · rw [List.length_cons, show read + (l.length + 1) = read + 1 + l.length by omega, e2, g3,
        take_set_succ _ _ _ (h1 ▸ h2)]
      simp
    · simp only [List.length_cons]; omega

/-- a last line without newline gains the byte 0xFF -/
theorem loop_last (fill : UInt8) (l : Bytes) (hl : (10 : UInt8) ∉ l) (buf : Bytes)
    (read size : Nat) (h1 : buf.length = size) (h2 : read < size) :
    ∃ buf', loop fill buf read size l = .ok (buf', read + l.length + 1, []) ∧
      buf'.take (read + l.length + 1) = buf.take read ++ l ++ [0xFF] ∧
      read + l.length + 1 ≤ buf'.length := by
  induction l generalizing buf read size with
  | nil =>
    have hb : (buf.set read 0xFF).length = size := by simpa using h1
    obtain ⟨g1, g2, g3⟩ := grow_spec fill (buf.set read 0xFF) (read + 1) size hb (by omega)
    refine ⟨_, by simp only [loop, store_ok (h1 ▸ h2), Outcome.bind_ok]; rfl, ?_, ?_⟩
    · simp only [List.length_nil, Nat.add_zero, List.append_nil]
      rw [g3, take_set_succ _ _ _ (h1 ▸ h2)]
    · simp only [List.length_nil]; omega
  | cons c l ih =>
    simp only [List.mem_cons, not_or] at hl
    have hc : c ≠ 10 := fun h => hl.1 h.symm
    have hb : (buf.set read c).length = size := by simpa using h1
    obtain ⟨g1, g2, g3⟩ := grow_spec fill (buf.set read c) (read + 1) size hb (by omega)
    obtain ⟨buf', e1, e2, e3⟩ := ih hl.2 _ _ _ g1 g2
    refine ⟨buf', ?_, ?_, ?_⟩
    · simp only [loop, hc, ↓reduceIte, store_ok (h1 ▸ h2), Outcome.bind_ok, e1, List.length_cons]
      congr 3; omega
    · rw [List.length_cons, show read + (l.length + 1) + 1 = read + 1 + l.length + 1 by omega, e2, g3,
        take_set_succ _ _ _ (h1 ▸ h2)]
      simp
    · simp only [List.length_cons]; omega

theorem resize_take (fill : UInt8) (buf : Bytes) (n : Nat) (h : n ≤ buf.length) :
    resizeChars fill buf n = buf.take n := by
  simp [resizeChars, Nat.sub_eq_zero_of_le h]

theorem getline_line (fill : UInt8) (old l rest : Bytes) (hl : (10 : UInt8) ∉ l) :
    getline fill old (l ++ 10 :: rest) = .ok (some l, rest) := by
  obtain ⟨buf', e1, e2, e3⟩ := loop_line fill l rest hl (resizeChars fill old 63) 0 63
    (length_resize _ _ _) (by omega)
  unfold getline
  rw [if_neg (by simp), e1]
  simp only [Outcome.bind_ok]
  rw [resize_take _ _ _ (by simpa using e3), e2]
  simp

theorem getline_last (fill : UInt8) (old l : Bytes) (hl : (10 : UInt8) ∉ l) (hne : l ≠ []) :
    getline fill old l = .ok (some (l ++ [0xFF]), []) := by
  obtain ⟨buf', e1, e2, e3⟩ := loop_last fill l hl (resizeChars fill old 63) 0 63
    (length_resize _ _ _) (by omega)
  unfold getline
  rw [if_neg hne, e1]
  simp only [Outcome.bind_ok]
  rw [resize_take _ _ _ (by simpa using e3), e2]
  simp

theorem getline_end (fill : UInt8) (old : Bytes) : getline fill old [] = .ok (none, []) := by
  simp [getline]

theorem readLoop_lines (fill : UInt8) (ls : List Bytes) (h : Lines ls) (tail old : Bytes)
    (o : List Bytes) (fuel : Nat) :
    readLoop fill (ls.length + fuel) old (terminated ls ++ tail) o =
      readLoop fill fuel (match ls.getLast? with | some l => l | none => old) tail (o ++ ls) := by
  induction ls generalizing old o with
  | nil => simp [terminated]
  | cons l ls ih =>
    have h1 := h l (by simp)
    have h2 : Lines ls := fun x hx => h x (by simp [hx])
    have e : terminated (l :: ls) ++ tail = l ++ 10 :: (terminated ls ++ tail) := by
      simp [terminated]
    rw [e, List.length_cons, show ls.length + 1 + fuel = (ls.length + fuel) + 1 by omega]
    simp only [readLoop, getline_line fill old l _ h1, Outcome.bind_ok]
    rw [ih h2]
    congr 1
    · rw [List.getLast?_cons]
      cases ls.getLast? <;> rfl
    · simp

theorem terminated_length (ls : List Bytes) : ls.length ≤ (terminated ls).length := by
  induction ls with
  | nil => simp [terminated]
  | cons l ls ih =>
    have : terminated (l :: ls) = l ++ [10] ++ terminated ls := by simp [terminated]
    rw [this]
    simp only [List.length_cons, List.length_append, List.length_nil]
    omega

/-- every content is a sequence of lines and a rest without newline -/
theorem decompose (c : Bytes) : ∃ ls last, Lines ls ∧ (10 : UInt8) ∉ last ∧
    c = terminated ls ++ last := by
  induction c with
  | nil => exact ⟨[], [], by simp [Lines], by simp, rfl⟩
  | cons b c ih =>
    obtain ⟨ls, last, h1, h2, rfl⟩ := ih
    by_cases hb : b = 10
    · refine ⟨[] :: ls, last, ?_, h2, by simp [terminated, hb]⟩
      intro l hl
      rcases List.mem_cons.1 hl with rfl | hl
      · simp
      · exact h1 l hl
    · cases ls with
      | nil =>
        refine ⟨[], b :: last, by simp [Lines], ?_, by simp [terminated]⟩
        simp only [List.mem_cons, not_or]
        exact ⟨fun h => hb h.symm, h2⟩
      | cons l ls =>
        refine ⟨(b :: l) :: ls, last, ?_, h2, by simp [terminated]⟩
        intro x hx
        rcases List.mem_cons.1 hx with rfl | hx
        · simp only [List.mem_cons, not_or]
          exact ⟨fun h => hb h.symm, h1 l (by simp)⟩
        · exact h1 x (by simp [hx])

end Libube.GetLine

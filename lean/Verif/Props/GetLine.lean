import Verif.Lemmas.GetLine
import Verif.Lemmas.StringFns

/-! # C14, C15: reading lines, text files

`fill` is what newly allocated memory happens to contain; no result depends on it. -/

namespace Libube.GetLine

open Libube Libube.CString Libube.LineSpec

/-- C14 for contents in which every line ends with a newline: reading line by line until nil
    yields exactly the lines, whatever their number and length.  Missing for the full claim: a
    last line without newline, for which it is false (`unterminated_line_gains_byte`). -/
theorem read_lines_partial (fill : UInt8) (ls : List Bytes) (h : Lines ls) (fuel : Nat)
    (hf : (terminated ls).length < fuel) :
    readLoop fill fuel [] (terminated ls) [] = .ok ls := by
  have hl := terminated_length ls
  obtain ⟨k, rfl⟩ : ∃ k, fuel = ls.length + (k + 1) := ⟨fuel - ls.length - 1, by omega⟩
  have := readLoop_lines fill ls h [] [] [] (k + 1)
  rw [List.append_nil] at this
  rw [this]
  simp [readLoop, getline_end]

-- "ab\n\nc\n"
example : Lines [[97, 98], [], [99]] ∧ terminated [[97, 98], [], [99]] = [97, 98, 10, 10, 99, 10] := by
  constructor
  · simp [Lines]
  · rfl

/-- C14 fails for every content whose last line is not ended by a newline: that line is returned
    with an additional byte 0xFF.  With `read_lines_partial` this settles all contents
    (`decompose`). -/
theorem unterminated_line_gains_byte (fill : UInt8) (ls : List Bytes) (h : Lines ls) (last : Bytes)
    (hl : (10 : UInt8) ∉ last) (hne : last ≠ []) (fuel : Nat)
    (hf : (terminated ls ++ last).length < fuel) :
    readLoop fill fuel [] (terminated ls ++ last) [] = .ok (ls ++ [last ++ [0xFF]]) := by
  have hl' := terminated_length ls
  have : last.length ≠ 0 := by simpa using hne
  rw [List.length_append] at hf
  obtain ⟨k, rfl⟩ : ∃ k, fuel = ls.length + (k + 2) := ⟨fuel - ls.length - 2, by omega⟩
  rw [readLoop_lines fill ls h]
  simp [readLoop, getline_last _ _ _ hl hne, getline_end]

example : readLoop 0 4 [] [97, 10, 98] [] = .ok [[97], [98, 0xFF]] :=
  unterminated_line_gains_byte 0 [[97]] (by simp [Lines]) [98] (by simp) (by simp) 4 (by decide)

/-- Every content falls under one of the two theorems above. -/
theorem contents_covered (c : Bytes) : ∃ ls last, Lines ls ∧ (10 : UInt8) ∉ last ∧
    c = terminated ls ++ last := decompose c

/-- One call of `getline`, in the middle of a stream and on a variable holding any old content:
    it returns the next line and leaves the stream behind its newline. -/
theorem getline_next (fill : UInt8) (old l rest : Bytes) (hl : (10 : UInt8) ∉ l) :
    getline fill old (l ++ [10] ++ rest) = .ok (some l, rest) := by
  rw [List.append_assoc]; exact getline_line fill old l rest hl

example : getline 0 [1, 2, 3] ([97] ++ [10] ++ [98]) = .ok (some [97], [98]) :=
  getline_next 0 _ _ _ (by simp)

/-- C15 fails for every list of at least one string: what is read back are the strings with
    quotation marks around them. -/
theorem text_file_adds_quotes (fill : UInt8) (xs : List Bytes) (hx : ∀ x ∈ xs, (10 : UInt8) ∉ x)
    (hz : ∀ x ∈ xs, (0 : UInt8) ∉ x) (hne : xs ≠ []) (fuel : Nat)
    (hf : (writeText xs).length < fuel) :
    readText fill fuel (writeText xs) = .ok (.arr (xs.map (fun x => .chars ([34] ++ x ++ [34])))) ∧
    xs.map (fun x => Val.chars ([34] ++ x ++ [34])) ≠ xs.map .chars := by
  have hw : writeText xs = terminated (xs.map quoted) := by
    simp [writeText, terminated, List.flatMap_map]
  have hq : ∀ x ∈ xs, quoted x = [34] ++ x ++ [34] := by
    intro x h
    rw [quoted, StringFns.cstr_of_no_nul x (hz x h)]; rfl
  constructor
  · rw [hw] at hf ⊢
    unfold readText
    rw [read_lines_partial fill _ ?_ fuel hf]
    · have : xs.map quoted ≠ [] := by simpa using hne
      obtain ⟨a, t, e⟩ := List.exists_cons_of_ne_nil this
      have e2 : pushed (xs.map quoted) = .arr ((xs.map quoted).map .chars) := by rw [e]; rfl
      rw [Outcome.bind_ok, e2, List.map_map]
      congr 2
      exact List.map_congr_left fun x h => by simp [hq x h]
    · intro l hl
      obtain ⟨x, h1, rfl⟩ := List.mem_map.1 hl
      rw [hq x h1]
      simpa using hx x h1
  · obtain ⟨a, t, rfl⟩ := List.exists_cons_of_ne_nil hne
    intro h
    simp only [List.map_cons, List.cons.injEq, Val.chars.injEq] at h
    have := congrArg List.length h.1
    simp at this
    omega

example : readText 0 100 (writeText [[97], []]) = .ok (.arr [.chars [34, 97, 34], .chars [34, 34]]) := by
  have := (text_file_adds_quotes 0 [[97], []] (by simp) (by simp) (by simp) 100 (by decide)).1
  simpa using this

/-- C15 fails for the empty list: it is read back as nil. -/
theorem empty_text_file (fill : UInt8) (fuel : Nat) : readText fill (fuel + 1) (writeText []) = .ok .nil := by
  simp [readText, writeText, readLoop, getline_end, pushed]

/-- C15, what holds: reading a file of newline-ended lines gives the array of those lines, so a
    file written as plain lines by other means reads correctly.  Missing for the full claim: the
    writer adds quotation marks (`text_file_adds_quotes`). -/
theorem text_file_read_partial (fill : UInt8) (ls : List Bytes) (h : Lines ls) (hne : ls ≠ [])
    (fuel : Nat) (hf : (terminated ls).length < fuel) :
    readText fill fuel (terminated ls) = .ok (.arr (ls.map .chars)) := by
  unfold readText
  rw [read_lines_partial fill ls h fuel hf, Outcome.bind_ok]
  obtain ⟨a, t, rfl⟩ := List.exists_cons_of_ne_nil hne
  rfl

example : Lines [[97], []] ∧ ([[97], []] : List Bytes) ≠ [] := by simp [Lines]

#print axioms read_lines_partial
#print axioms unterminated_line_gains_byte
#print axioms contents_covered
#print axioms getline_next
#print axioms text_file_adds_quotes
#print axioms empty_text_file
#print axioms text_file_read_partial

end Libube.GetLine

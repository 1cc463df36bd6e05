import Verif.Lemmas.Ini

/-! # C18, C19: INI files

`n` is the call depth granted to key comparisons (2 suffices), `fuel` the number of lines the
reader may process, `fill` the value of uninitialised memory. -/

namespace Libube.Ini

open Libube Libube.CString Libube.StringSpec Libube.IniSpec Libube.Order Libube.StringFns

/-- C18 for files whose lines are empty, comments, sections or entries whose value does not
    contain the separator again, each ended by a newline: reading returns a map from sections to
    non-empty maps from keys to strings; it holds exactly the last value of every key in every
    section; no section and no key of a section occurs twice.
    Missing for the full claim: lines of white space only (`blank_line_undefined`), values
    containing the separator (`value_cut`, C19), a last line without newline
    (`unterminated_value`); for each the claim is false. -/
theorem ini_last_value_partial (fill : UInt8) (is : List Item) (hv : ∀ i ∈ is, i.Valid)
    (ho : ∀ i ∈ is, i.OneSeparator) (hl : ∀ i ∈ is, (10 : UInt8) ∉ i.text) (n fuel : Nat)
    (hn : 2 ≤ n) (hf : is.length < fuel) :
    ∃ ps, read fill n fuel (is.flatMap (fun i => i.text ++ [10])) = .ok ps ∧
      (∀ sec key value, (∃ q, (Val.chars sec, Val.map q) ∈ ps ∧ (Val.chars key, Val.chars value) ∈ q) ↔
        LastEntry is sec key value) ∧
      (∀ p ∈ ps, ∃ sec q, p = (Val.chars sec, Val.map q) ∧ q ≠ [] ∧
        (∀ e ∈ q, ∃ key value, e = (Val.chars key, Val.chars value)) ∧
        (q.map Prod.fst).Nodup) ∧
      (ps.map Prod.fst).Nodup := by
  obtain ⟨n, rfl⟩ : ∃ m, n = m + 2 := ⟨n - 2, by omega⟩
  obtain ⟨f, rfl⟩ : ∃ f, fuel = is.length + (f + 1) := ⟨fuel - is.length - 1, by omega⟩
  obtain ⟨ps, old, e, hi, -⟩ := loop_items fill n is hv ho hl [] _ Inv.empty [] (by simp) [] [] (f + 1)
  have hnd : ∀ {q : List (Val × Val)}, WF IsStr code q → (q.map Prod.fst).Nodup := by
    intro q hq
    unfold List.Nodup
    rw [List.pairwise_map]
    refine hq.sorted.imp ?_
    intro a b h he
    rw [he] at h
    exact lt_irrefl _ h
  refine ⟨ps, ?_, ?_, ?_, hnd hi.wf⟩
  · rw [List.append_nil] at e
    rw [read, e]
    simp [loop, GetLine.getline_end]
  · intro sec key value
    rw [hi.mem, bindings_last]
  · intro p hp
    obtain ⟨s, hps, -⟩ := hi.wf.keys p hp
    obtain ⟨q, hq, hs⟩ := hi.sections _ _ (get_of_mem hi.wf hp)
    obtain ⟨p1, p2⟩ := p
    simp only at hps hq
    subst hps; subst hq
    refine ⟨s, q, rfl, hs.ne, ?_, hnd hs.wf⟩
    intro e he
    obtain ⟨k, hk, -⟩ := hs.wf.keys e he
    obtain ⟨v, hv⟩ := hs.vals _ _ (get_of_mem hs.wf he)
    exact ⟨k, v, Prod.ext hk hv⟩

-- "; c\n\nk = 1\n [s] \nk: 2\nk = 3 \n"
example :
    let is : List Item := [.comment [] 59 [32, 99], .empty, .entry [] [107] [32] 61 [32] [49] [],
      .head [32] [115] [32], .entry [] [107] [] 58 [32] [50] [], .entry [] [107] [32] 61 [32] [51] [32]]
    (∀ i ∈ is, i.Valid) ∧ (∀ i ∈ is, i.OneSeparator) ∧ (∀ i ∈ is, (10 : UInt8) ∉ i.text) ∧
    LastEntry is [115] [107] [51] ∧ LastEntry is [] [107] [49] := by
  refine ⟨?_, ?_, ?_, ?_, ?_⟩
  · simp [Item.Valid, Blank, Trimmed, IsSpace]
  · simp [Item.OneSeparator]
  · simp [Item.text]
  · refine ⟨[.comment [] 59 [32, 99], .empty, .entry [] [107] [32] 61 [32] [49] [],
      .head [32] [115] [32], .entry [] [107] [] 58 [32] [50] []], _, [], rfl, rfl,
      ⟨[], [32], 61, [32], [32], rfl⟩, ?_⟩
    intro b1 j b2 v h; simp at h
  · refine (bindings_last _ _ _ _).1 ?_
    simp [bindings, itemStep, upd, sectionAfter]

/-- C18 fails for a line of white space, wherever it is: stripping it is undefined behaviour. -/
theorem blank_line_undefined (fill : UInt8) (l : Bytes) (hne : l ≠ []) (hl : ∀ b ∈ l, IsSpace b)
    (h10 : (10 : UInt8) ∉ l) (is : List Item) (hv : ∀ i ∈ is, i.Valid)
    (ho : ∀ i ∈ is, i.OneSeparator) (hli : ∀ i ∈ is, (10 : UInt8) ∉ i.text) (rest : Bytes)
    (n fuel : Nat) (hn : 2 ≤ n) (hf : is.length < fuel) :
    read fill n fuel (is.flatMap (fun i => i.text ++ [10]) ++ (l ++ 10 :: rest)) = .ub .outOfBounds := by
  obtain ⟨n, rfl⟩ : ∃ m, n = m + 2 := ⟨n - 2, by omega⟩
  have hstrip : stripInPlace l = .ub .outOfBounds := by
    have h1 : l.takeWhile isspace = l := by
      rw [List.takeWhile_eq_self_iff]
      intro b hb; rw [isspace_iff]; exact hl b hb
    have h2 : l.reverse.takeWhile isspace = l.reverse := by
      rw [List.takeWhile_eq_self_iff]
      intro b hb; rw [isspace_iff]; exact hl b (by simpa using hb)
    have := List.length_pos_iff.2 hne
    unfold stripInPlace
    simp only [h1, h2, List.length_reverse]
    split <;> rename_i h3
    · rfl
    · omega
  obtain ⟨f, rfl⟩ : ∃ f, fuel = is.length + (f + 1) := ⟨fuel - is.length - 1, by omega⟩
  obtain ⟨ps, old, e, -, -⟩ := loop_items fill n is hv ho hli [] _ Inv.empty [] (by simp) []
    (l ++ 10 :: rest) (f + 1)
  rw [read, e]
  simp only [loop]
  rw [GetLine.getline_line fill old l rest h10]
  simp [line, hstrip]

example : ([32, 9] : Bytes) ≠ [] ∧ (∀ b ∈ ([32, 9] : Bytes), IsSpace b) ∧ (10 : UInt8) ∉ ([32, 9] : Bytes) := by
  decide

/-- C19 for values that do not contain the separator again: if the last line of a file is
    `key = value`, the file holds the whole value under the section in force and the key.
    Missing for the full claim: values containing the separator, where it is false (`value_cut`). -/
theorem value_kept_partial (fill : UInt8) (is : List Item) (hv : ∀ i ∈ is, i.Valid)
    (ho : ∀ i ∈ is, i.OneSeparator) (hl : ∀ i ∈ is, (10 : UInt8) ∉ i.text)
    (pre key gap : Bytes) (sep : UInt8) (gap' value post : Bytes)
    (hv' : (Item.entry pre key gap sep gap' value post).Valid) (ho' : sep ∉ value)
    (hl' : (10 : UInt8) ∉ pre ++ key ++ gap ++ [sep] ++ gap' ++ value ++ post)
    (n fuel : Nat) (hn : 2 ≤ n) (hf : is.length + 1 < fuel) :
    ∃ ps, read fill n fuel (is.flatMap (fun i => i.text ++ [10]) ++
        (pre ++ key ++ gap ++ [sep] ++ gap' ++ value ++ post) ++ [10]) = .ok ps ∧
      ∃ q, (Val.chars (sectionAfter [] is), Val.map q) ∈ ps ∧ (Val.chars key, Val.chars value) ∈ q := by
  obtain ⟨ps, e, h, -⟩ := ini_last_value_partial fill (is ++ [.entry pre key gap sep gap' value post])
    (by intro i hi; rcases List.mem_append.1 hi with h | h
        · exact hv i h
        · rw [List.mem_singleton.1 h]; exact hv')
    (by intro i hi; rcases List.mem_append.1 hi with h | h
        · exact ho i h
        · rw [List.mem_singleton.1 h]; exact ho')
    (by intro i hi; rcases List.mem_append.1 hi with h | h
        · exact hl i h
        · rw [List.mem_singleton.1 h]; exact hl') n fuel hn (by simpa using hf)
  refine ⟨ps, ?_, ?_⟩
  · rw [← e]; congr 1; simp [Item.text]
  · rw [h]
    exact ⟨is, _, [], rfl, rfl, ⟨_, _, _, _, _, rfl⟩, by simp⟩

/-- C19 fails for every value containing the separator again: only the text up to the second
    separator is stored. -/
theorem value_cut (fill : UInt8) (is : List Item) (hv : ∀ i ∈ is, i.Valid)
    (ho : ∀ i ∈ is, i.OneSeparator) (hl : ∀ i ∈ is, (10 : UInt8) ∉ i.text)
    (pre key gap : Bytes) (sep : UInt8) (gap' v1 gap'' v2 post : Bytes)
    (hv' : (Item.entry pre key gap sep gap' (v1 ++ gap'' ++ [sep] ++ v2) post).Valid)
    (hl' : (10 : UInt8) ∉ (Item.entry pre key gap sep gap' (v1 ++ gap'' ++ [sep] ++ v2) post).text)
    (h1 : v1 ≠ []) (ht : Trimmed v1) (hb : Blank gap'') (hn1 : sep ∉ v1)
    (n fuel : Nat) (hn : 2 ≤ n) (hf : is.length + 1 < fuel) :
    ∃ ps, read fill n fuel (is.flatMap (fun i => i.text ++ [10]) ++
        ((Item.entry pre key gap sep gap' (v1 ++ gap'' ++ [sep] ++ v2) post).text ++ 10 :: [])) = .ok ps ∧
      (∃ q, (Val.chars (sectionAfter [] is), Val.map q) ∈ ps ∧ (Val.chars key, Val.chars v1) ∈ q) ∧
      ¬ ∃ q, (Val.chars (sectionAfter [] is), Val.map q) ∈ ps ∧
        (Val.chars key, Val.chars (v1 ++ gap'' ++ [sep] ++ v2)) ∈ q := by
  obtain ⟨n, rfl⟩ : ∃ m, n = m + 2 := ⟨n - 2, by omega⟩
  have hv0 := hv'
  obtain ⟨hb1, hb2, hb3, hb4, ht1, ht2, hne, hh, hz1, hz2, hsep⟩ := hv'
  have hsepns : ¬ IsSpace sep := by
    rcases hsep with ⟨rfl, -⟩ | ⟨rfl, -⟩ <;> decide
  obtain ⟨f, rfl⟩ : ∃ f, fuel = is.length + (f + 1 + 1) := ⟨fuel - is.length - 2, by omega⟩
  obtain ⟨ps, old, e, hi, hs⟩ := loop_items fill n is hv ho hl [] _ Inv.empty [] (by simp) []
    ((Item.entry pre key gap sep gap' (v1 ++ gap'' ++ [sep] ++ v2) post).text ++ 10 :: []) (f + 1 + 1)
  have := line_entry (n + 2) ps (sectionAfter [] is) pre key gap sep gap' _ post hv0 v1 (by
    refine ⟨gap', gap'', ?_, hb3, hb, ht, fun h => absurd h h1⟩
    rw [if_neg (by simp)]
    have e : gap' ++ (v1 ++ gap'' ++ [sep] ++ v2) = (gap' ++ v1 ++ gap'') ++ [sep] ++ v2 := by simp
    rw [e, takeWhile_ne_append]
    simp only [List.mem_append, not_or]
    exact ⟨⟨fun h => hsepns (hb3 _ h), hn1⟩, fun h => hsepns (hb _ h)⟩)
  obtain ⟨ps', e', hi'⟩ := assign_spec n ps _ hi (sectionAfter [] is) key v1 hs hz1
  refine ⟨ps', ?_, ?_, ?_⟩
  · rw [read, e, loop, GetLine.getline_line fill old _ [] hl', Outcome.bind_ok]
    simp only [this, e', Outcome.bind_ok]
    simp [loop, GetLine.getline_end]
  · rw [hi'.mem]; simp [upd]
  · rw [hi'.mem]
    simp only [upd, and_self, if_true, Option.some.injEq]
    intro h
    have := congrArg List.length h
    simp at this

-- "a=b=c": v1 = "b"
example : (Item.entry [] [97] [] 61 [] ([98] ++ [] ++ [61] ++ [99]) []).Valid ∧
    (10 : UInt8) ∉ (Item.entry [] [97] [] 61 [] ([98] ++ [] ++ [61] ++ [99]) []).text ∧
    Trimmed [98] ∧ (61 : UInt8) ∉ [98] ∧ (Item.entry [] [97] [] 61 [] [98] []).Valid :=
  ⟨by simp [Item.Valid, Blank, Trimmed, IsSpace], by decide,
    by simp [Trimmed, IsSpace], by decide, by simp [Item.Valid, Blank, Trimmed, IsSpace]⟩

/-- C18 fails for a last line without newline: its value gains a byte 0xFF. -/
theorem unterminated_value (fill : UInt8) (n : Nat) (hn : 2 ≤ n) :
    ∃ ps, read fill n 2 [97, 61, 98] = .ok ps ∧
      ∃ q, (Val.chars [], Val.map q) ∈ ps ∧ (Val.chars [97], Val.chars [98, 0xFF]) ∈ q := by
  obtain ⟨n, rfl⟩ : ∃ m, n = m + 2 := ⟨n - 2, by omega⟩
  obtain ⟨ps', e, hi', -⟩ := line_item n [] _ Inv.empty [] (by simp) (.entry [] [97] [] 61 [] [98, 0xFF] [])
    (by simp [Item.Valid, Blank, Trimmed, IsSpace]) (by simp [Item.OneSeparator])
  refine ⟨ps', ?_, ?_⟩
  · have hg := GetLine.getline_last fill [] [97, 61, 98] (by decide) (by decide)
    have ht : (Item.entry [] [97] [] 61 [] [98, 0xFF] []).text = [97, 61, 98] ++ [0xFF] := rfl
    rw [ht] at e
    simp only [read, loop, hg, Outcome.bind_ok, e, GetLine.getline_end]
  · rw [hi'.mem]; simp [itemStep, upd]

/-! ## C163: writing -/

theorem brace_line (n : Nat) (r : Bytes) (hr : r = [] ∨ r = [125]) : line n [] [] (123 :: r) = .thrown (.error "inifile::read(): couldn't split") := by
  rcases hr with rfl | rfl <;> rfl

/-- C163: what is written for a map whose first entry is a map cannot be read: the first line is a brace. -/
theorem written_unreadable (fill : UInt8) (n fuel : Nat) (q : List (Val × Val)) (vs : List Val) :
    read fill n (fuel + 1) (write (.map q :: vs)) = .thrown (.error "inifile::read(): couldn't split") := by
  obtain ⟨r, rest, hr, h10, hw⟩ : ∃ r rest : Bytes, (r = [] ∨ r = [125]) ∧ (10 : UInt8) ∉ 123 :: r ∧ write (.map q :: vs) = (123 :: r) ++ 10 :: rest := by
    cases q with
    | nil => exact ⟨[125], write vs, .inr rfl, by decide, by simp [write, Json.format]⟩
    | cons p ps =>
      obtain ⟨x, hx⟩ : ∃ x, Json.formatMembers 0 (p :: ps) = 10 :: x := by
        obtain ⟨k, v⟩ := p
        cases ps with
        | nil => exact ⟨_, by rw [Json.formatMembers]; rfl⟩
        | cons p' ps => exact ⟨_, by rw [Json.formatMembers]; rfl⟩
      exact ⟨[], x ++ 10 :: Json.spaces 0 ++ [125] ++ [10] ++ write vs, .inl rfl, by decide, by simp [write, Json.format, hx]⟩
  rw [hw]
  have hg := GetLine.getline_line fill [] (123 :: r) rest h10
  simp only [read, loop, hg, Outcome.bind_ok, brace_line n r hr]
  rfl

/-- C163: whatever entries an INI file has, writing what was read makes a file that cannot be read. -/
theorem rewritten_unreadable (fill : UInt8) (is : List Item) (hv : ∀ i ∈ is, i.Valid) (ho : ∀ i ∈ is, i.OneSeparator) (hl : ∀ i ∈ is, (10 : UInt8) ∉ i.text) (n fuel : Nat)
    (hn : 2 ≤ n) (hf : is.length < fuel) {sec key value : Bytes} (he : LastEntry is sec key value) :
    ∃ ps, read fill n fuel (is.flatMap (fun i => i.text ++ [10])) = .ok ps ∧
      ∀ m f, read fill m (f + 1) (write (ps.map Prod.snd)) = .thrown (.error "inifile::read(): couldn't split") := by
  obtain ⟨ps, h1, h2, h3, -⟩ := ini_last_value_partial fill is hv ho hl n fuel hn hf
  refine ⟨ps, h1, fun m f => ?_⟩
  obtain ⟨q, hq, -⟩ := (h2 sec key value).2 he
  match ps, hq with
  | p :: ps, _ =>
    obtain ⟨s, q, rfl, -⟩ := h3 p List.mem_cons_self
    exact written_unreadable fill m f q _

/-- Nothing written is read back as nothing. -/
theorem nothing_written_partial (fill : UInt8) (n fuel : Nat) : read fill n (fuel + 1) (write []) = .ok [] := by
  simp [read, write, loop, GetLine.getline_end]

-- "[s]\nk = 3\n" has an entry
example : LastEntry [.head [] [115] [], .entry [] [107] [32] 61 [32] [51] []] [115] [107] [51] :=
  ⟨[.head [] [115] []], _, [], rfl, rfl, ⟨[], [32], 61, [32], [], rfl⟩, fun b1 j b2 v h => by simp at h⟩

#print axioms written_unreadable
#print axioms rewritten_unreadable
#print axioms nothing_written_partial
#print axioms ini_last_value_partial
#print axioms blank_line_undefined
#print axioms value_kept_partial
#print axioms value_cut
#print axioms unterminated_value

end Libube.Ini

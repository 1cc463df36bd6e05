import Verif.Lemmas.GedEval

/-! # C106-C109: GEDCOM files

`fill` is the value of uninitialised memory, `d` the call depth granted to key comparisons (2 suffices), `fuel` the number of lines
the reader may process. -/

namespace Libube.Ged

open Libube Libube.CString Libube.StringFns Libube.GedSpec

/-! ### Documents for the examples -/

instance (t : Bytes) : Decidable (Text t) := by unfold Text; infer_instance
instance (t : Bytes) : Decidable (Word t) := by unfold Word; infer_instance
instance (t : Bytes) : Decidable (Xref t) := by unfold Xref; infer_instance
instance (a : Arg) : Decidable (ValidArg a) :=
  match a with
  | none => .isTrue (by rintro t ⟨⟩)
  | some t => decidable_of_iff (Text t) ⟨by rintro h t ⟨⟩; exact h, fun h => h t rfl⟩
instance (c : Sub) : Decidable c.Valid := by unfold Sub.Valid; infer_instance
instance (i : Item) : Decidable i.Valid := by cases i <;> unfold Item.Valid <;> infer_instance
instance (i : FamItem) : Decidable i.Valid := by cases i <;> unfold FamItem.Valid <;> infer_instance
instance (ls : List (Nat × Bytes)) : Decidable (ValidLines ls) := by unfold ValidLines; infer_instance
instance (r : Record) : Decidable r.Valid := by cases r <;> unfold Record.Valid <;> infer_instance
instance (c : Doc) : Decidable c.Valid := by unfold Doc.Valid; infer_instance

/-- Two individuals with a name. -/
def john : Record := .indi (ascii "@I1@") (.name (some (ascii "John /Smith/")))
  [.sex (some (ascii "M")), .event (ascii "BIRT") none [⟨ascii "DATE", some (ascii "1 JAN 1900")⟩, ⟨ascii "PLAC", none⟩],
   .other (ascii "NOTE") (some (ascii "a b")) [⟨ascii "CONT", some (ascii "c")⟩]]
def jane : Record := .indi (ascii "@I2@") (.name (some (ascii "Jane"))) [.name (some (ascii "Jane /Doe/"))]
/-- Their family. -/
def smiths : Record := .fam (ascii "@F1@") (.husb (ascii "@I1@")) [.wife (ascii "@I2@"),
  .marr none ⟨ascii "DATE", some (ascii "1925")⟩ [], .other (ascii "DIV") none]
/-- A submitter. -/
def submitter : Record := .subm (ascii "@S1@") (ascii "NAME x") [(2, ascii "ADDR y")]

def sample : Doc := ⟨ascii "SOUR z", [(2, ascii "VERS 1")], [john, jane, submitter, smiths]⟩

theorem sample_back : LinkedBack sample.records := by
  intro as r bs h x hx
  have h4 : as.length < 4 := by
    have := congrArg List.length h
    simp [sample] at this
    omega
  have hr : ([john, jane, submitter, smiths] : List Record)[as.length]? = some r := by
    have : sample.records[as.length]? = some r := by rw [h]; simp
    exact this
  have ha : as = [john, jane, submitter, smiths].take as.length := by
    have : as = sample.records.take as.length := by rw [h]; simp
    exact this
  generalize as.length = k at *
  interval_cases k
  · cases hr; simp [john, Record.links] at hx
  · cases hr; simp [jane, Record.links] at hx
  · cases hr; simp [submitter, Record.links] at hx
  · cases hr
    rw [ha]
    simp [smiths, Record.links, FamItem.links] at hx
    simp [xrefs, john, jane, submitter]
    exact hx

/-! ### C106 -/

/-- C106 for documents in which individuals come before the families that refer to them, every record and every MARR line has
    lines below, and all tags of individuals and families are known: the result holds the individuals and families of the document, in
    order, with the names, titles and sexes given last, and links as positions of individuals.  What follows the trailer does not matter.
    Missing for the full claim: families that come before an individual (`gedcom_forward_link_lost`, `gedcom_forward_family_throws`),
    MARR lines with nothing below (`gedcom_marriage_alone`), records with nothing below (`gedcom_empty_record`); for each the claim is false. -/
theorem gedcom_read_partial (fill : UInt8) (d fuel : Nat) (c : Doc) (rest : Bytes) (hv : c.Valid) (hb : LinkedBack c.records) (hd : 2 ≤ d)
    (hf : c.front.length < fuel) : read fill d fuel (c.text ++ rest) = .ok c.value := by
  obtain ⟨d, rfl⟩ : ∃ k, d = k + 2 := ⟨d - 2, by omega⟩
  have hT := known_word _ (show ascii "TRLR" ∈ knownTags by decide +kernel)
  have h := read_doc fill d _ _ _ (opening_raw fill (ascii "TRLR") rest hT.1) 0 [] (by
    rw [fieldsOf_word _ hT.2.1 hT.1.2]
    exact stops_trailer fill (d + 2) rest [82, 76, 82] [] (Or.inl (by decide +kernel))) c hv hb fuel hf
  rw [List.map_nil, List.append_nil] at h
  rw [Doc.text, List.append_assoc]
  exact h

example : sample.Valid := by decide +kernel
example : LinkedBack sample.records := sample_back
example : read 7 2 500 sample.text = .ok (.map [
    (.chars (ascii "Family"), .arr [.map [(.chars (ascii "CHIL"), .nil), (.chars (ascii "HUSB"), .int 0), (.chars (ascii "WIFE"), .int 1)]]),
    (.chars (ascii "Individual"), .arr [
      .map [(.chars (ascii "NAME"), .chars (ascii "John /Smith/")), (.chars (ascii "SEX"), .chars (ascii "M")), (.chars (ascii "TITL"), .nil)],
      .map [(.chars (ascii "NAME"), .chars (ascii "Jane /Doe/")), (.chars (ascii "SEX"), .nil), (.chars (ascii "TITL"), .nil)]])]) := by
  have h := gedcom_read_partial 7 2 500 sample [] (by decide +kernel) sample_back (by decide) (by decide +kernel)
  rw [List.append_nil] at h
  exact h

/-- C106 when the newline after the trailer is missing. -/
theorem gedcom_unterminated_trailer (fill : UInt8) (d fuel : Nat) (c : Doc) (hv : c.Valid) (hb : LinkedBack c.records) (hd : 2 ≤ d)
    (hf : c.front.length < fuel) : read fill d fuel (c.front ++ ascii "0 TRLR") = .ok c.value := by
  obtain ⟨d, rfl⟩ : ∃ k, d = k + 2 := ⟨d - 2, by omega⟩
  have hO : Opening fill (ascii "0 TRLR") [] [[84, 82, 76, 82, 255]] := by
    intro f is fs m
    have e1 : ascii "0 TRLR" = [48, 32, 84, 82, 76, 82] := by decide +kernel
    have e2 : split 8 [48, 32, 84, 82, 76, 82, 255] [32] 0 = .ok [[48], [84, 82, 76, 82, 255]] := by decide +kernel
    have e3 : castInt (.chars [48]) = .ok 0 := by decide +kernel
    simp only [readLine, nextLine, e1, GetLine.getline_last fill [] [48, 32, 84, 82, 76, 82] (by decide) (by decide), Outcome.bind_ok]
    simp [e2, shift, e3]
  have h := read_doc fill d _ _ _ hO 0 [] (stops_trailer fill (d + 2) [] [82, 76, 82, 255] [] (Or.inr (by decide +kernel))) c hv hb fuel hf
  rw [List.map_nil, List.append_nil] at h
  exact h

example : read 7 2 500 (sample.front ++ ascii "0 TRLR") = .ok sample.value :=
  gedcom_unterminated_trailer 7 2 500 sample (by decide +kernel) sample_back (by decide) (by decide +kernel)

/-- C106 fails if a family comes before an individual it refers to: the link is left out. -/
theorem gedcom_forward_link_lost : ∃ c : Doc, c.Valid ∧ Linked c.records ∧ ∀ fill, ∃ v, read fill 2 500 c.text = .ok v ∧ v ≠ c.value := by
  refine ⟨⟨ascii "SOUR z", [], [john, smiths, jane]⟩, by decide +kernel, ?_, fun fill => ⟨contents
    [.map [(.chars (ascii "CHIL"), .nil), (.chars (ascii "HUSB"), .int 0), (.chars (ascii "WIFE"), .nil)]] (people [john, jane]), ?_, ?_⟩⟩
  · intro r hr x hx
    simp only [List.mem_cons, List.not_mem_nil, or_false] at hr
    rcases hr with rfl | rfl | rfl
    · simp [john, Record.links] at hx
    · simp [smiths, Record.links, FamItem.links] at hx
      simp [xrefs, john, jane, smiths]
      exact hx
    · simp [jane, Record.links] at hx
  · exact read_eval fill 2 500 _ _ (by decide +kernel)
  · intro h
    have h1 : same 9 (contents [.map [(.chars (ascii "CHIL"), .nil), (.chars (ascii "HUSB"), .int 0), (.chars (ascii "WIFE"), .nil)]]
      (people [john, jane])) (Doc.value ⟨ascii "SOUR z", [], [john, smiths, jane]⟩) = false := by decide +kernel
    rw [← h] at h1
    revert h1
    decide +kernel

/-- C106 fails if a family that refers to an individual comes first: the reader throws, whatever follows. -/
theorem gedcom_forward_family_throws (fill : UInt8) (d fuel : Nat) (c : Doc) (x : Bytes) (i : FamItem) (items : List FamItem) (rs : List Record)
    (hv : c.Valid) (hr : c.records = .fam x i items :: rs) (hi : i.links ≠ []) (hf : c.front.length < fuel) :
    read fill d fuel c.text = .thrown (.error "var::at(): uninitialised") := by
  have h := load_first fill d c x i items rs hv hr hi (raw 0 (ascii "TRLR")) fuel hf
  rw [read, Doc.text, h]
  rfl

example : (⟨ascii "SOUR z", [], [smiths, john, jane]⟩ : Doc).Valid ∧ (FamItem.husb (ascii "@I1@")).links ≠ [] ∧
    read 7 2 500 (⟨ascii "SOUR z", [], [smiths, john, jane]⟩ : Doc).text = .thrown (.error "var::at(): uninitialised") :=
  ⟨by decide +kernel, by simp [FamItem.links],
    gedcom_forward_family_throws 7 2 500 _ _ (.husb (ascii "@I1@")) _ _ (by decide +kernel) rfl (by simp [FamItem.links]) (by decide +kernel)⟩

/-- C106 fails for a MARR line with nothing below: what follows in the family is left out. -/
theorem gedcom_marriage_alone (fill : UInt8) :
    let c : Doc := ⟨ascii "SOUR z", [], [john, jane]⟩
    read fill 2 500 (c.front ++ ascii "0 @F1@ FAM\n1 MARR\n1 HUSB @I1@\n1 WIFE @I2@\n0 TRLR\n") =
      .ok (contents [household [] []] (people [john, jane])) := by
  exact read_eval fill 2 500 _ _ (by decide +kernel)

/-- C106 fails for an individual with nothing said: the records that follow are left out. -/
theorem gedcom_empty_record (fill : UInt8) :
    let c : Doc := ⟨ascii "SOUR z", [], [john]⟩
    read fill 2 500 (c.front ++ ascii "0 @I2@ INDI\n0 @I3@ INDI\n1 NAME Jack\n0 TRLR\n") = .ok (contents [] (people [john] ++ [person []])) := by
  exact read_eval fill 2 500 _ _ (by decide +kernel)

/-! ### C107 -/

/-- C107 but for undefined behaviour: for every file the reader stops, and returns individuals and families with links to individuals that are
    there, or throws, or accesses an element of an empty array.
    Missing for the full claim: files for which the behaviour is undefined (`gedcom_empty_file`, `gedcom_source_undefined`,
    `gedcom_truncated_undefined`); the claim is false for them. -/
theorem gedcom_any_partial (fill : UInt8) (d fuel : Nat) (content : Bytes) (hd : 2 ≤ d) (hf : 3 * content.length < fuel) (hc : content.length < 2 ^ 29) :
    (∃ v, read fill d fuel content = .ok v ∧ Sound v) ∨ read fill d fuel content = .thrown .ioFailure ∨
      read fill d fuel content = .thrown (.error "var::at(): uninitialised") ∨ read fill d fuel content = .ub .outOfBounds := by
  obtain ⟨d, rfl⟩ : ∃ k, d = k + 2 := ⟨d - 2, by omega⟩
  have h := load_fine fill d fuel content .init _ _ _ (good_init content) (by simpa [size, St.init] using hf)
  unfold read
  cases hl : load fill (d + 2) fuel content .init with
  | ok s =>
    rw [hl] at h
    exact Or.inl ⟨s.val, rfl, Good.sound h (by omega)⟩
  | thrown e =>
    rw [hl] at h
    rcases h with rfl | rfl
    · exact Or.inr (Or.inl rfl)
    · exact Or.inr (Or.inr (Or.inl rfl))
  | ub r =>
    rw [hl] at h
    cases (show r = .outOfBounds from h)
    exact Or.inr (Or.inr (Or.inr rfl))
  | abort => rw [hl] at h; exact h.elim
  | diverge => rw [hl] at h; exact h.elim

example : 3 * sample.text.length < 2000 ∧ sample.text.length < 2 ^ 29 := by decide +kernel

/-- C107 fails for the empty file. -/
theorem gedcom_empty_file (fill : UInt8) (d fuel : Nat) : read fill d fuel [] = .ub .outOfBounds := rfl

/-- C107 fails for a line "1 SOUR @S1@" in an individual, whatever follows. -/
theorem gedcom_source_undefined (fill : UInt8) (d fuel : Nat) (c : Doc) (x y n : Bytes) (rest : Bytes) (hv : c.Valid) (hb : LinkedBack c.records)
    (hx : Xref x) (hy : Xref y) (hn : Text n) (hd : 2 ≤ d)
    (hf : (c.front ++ raw 0 (x ++ ascii " INDI") ++ line 1 (ascii "NAME") (some n)).length < fuel) :
    read fill d fuel (c.front ++ (raw 0 (x ++ ascii " INDI") ++ (line 1 (ascii "NAME") (some n) ++ (line 1 (ascii "SOUR") (some y) ++ rest)))) =
      .ub .outOfBounds := by
  obtain ⟨d, rfl⟩ : ∃ k, d = k + 2 := ⟨d - 2, by omega⟩
  have hn' : ValidArg (some n) := by rintro t ⟨⟩; exact hn
  have hT : Text (x ++ ascii " INDI") := text_word _ _ hx.1.1 ⟨by decide +kernel, by decide +kernel⟩
  have hO := opening_raw fill (x ++ ascii " INDI") (line 1 (ascii "NAME") (some n) ++ (line 1 (ascii "SOUR") (some y) ++ rest)) hT
  have ef : fieldsOf (x ++ ascii " INDI") = [x, ascii "INDI"] := title_fields x "INDI" hx (known_word _ (by decide +kernel))
  rw [ef] at hO
  have hlen : (line 1 (ascii "NAME") (some n)).length = 4 + (1 + n.length) + 3 := by
    rw [line, raw_length]
    simp [argBytes, ascii]
    omega
  obtain ⟨k, m', h1, h2, h3⟩ := load_doc fill d _ _ _ hO ((line 1 (ascii "NAME") (some n)).length + 3) c hv hb fuel (by
    simp only [List.length_append, raw_length] at hf
    have : (ascii " INDI").length = 5 := by decide +kernel
    omega)
  obtain ⟨k, rfl⟩ : ∃ j, k = j + 2 := ⟨k - 2, by omega⟩
  obtain ⟨m2, h4, h5⟩ := file_individual fill d x hx [] (by simp) (some n) hn' (line 1 (ascii "SOUR") (some y) ++ rest) rest (ascii "SOUR") [y]
    (by decide +kernel) 1 (by omega) (fun f is fs m => by
      have := readLine_line fill 1 (by omega) (ascii "SOUR") (some y) (by decide +kernel) (word_arg y hy.1) rest f is fs m
      rw [pieces_word y hy.1] at this
      exact this) (k + 1) (indsOf c.records) (famsOf (xrefs c.records) c.records) m' h2 (by
      simp only [List.nil_append, List.flatMap_cons, List.flatMap_nil, List.append_nil, Item.text]
      omega)
  have e : ([] ++ [Item.name (some n)]).flatMap Item.text = line 1 (ascii "NAME") (some n) := by simp [Item.text]
  rw [e] at h5
  rw [read, h3, h5]
  obtain ⟨a, z, rfl⟩ := List.exists_cons_of_ne_nil hy.1.2.2
  obtain rfl : a = 64 := by simpa using hy.2
  simp [file, record, shift]

example : sample.Valid ∧ Xref (ascii "@I9@") ∧ Xref (ascii "@S1@") ∧ Text (ascii "Jack") := by decide +kernel
example : read 7 2 700 (sample.front ++ ascii "0 @I9@ INDI\n1 NAME Jack\n1 SOUR @S1@\n0 TRLR\n") = .ub .outOfBounds := by
  have h := gedcom_source_undefined 7 2 700 sample (ascii "@I9@") (ascii "@S1@") (ascii "Jack") (ascii "0 TRLR\n") (by decide +kernel) sample_back
    (by decide +kernel) (by decide +kernel) (by decide +kernel) (by decide) (by decide +kernel)
  exact h

/-- C107 fails for a file that ends after the header's first line. -/
theorem gedcom_truncated_undefined (fill : UInt8) (d fuel : Nat) : read fill d (fuel + 1) (ascii "0 HEAD\n") = .ub .outOfBounds := by
  have hH := known_word _ (show ascii "HEAD" ∈ knownTags by decide +kernel)
  have hR := readLine_raw fill 0 (by omega) (ascii "HEAD") [] hH.1 [] [] [] []
  have e : raw 0 (ascii "HEAD") ++ [] = ascii "0 HEAD\n" := by decide +kernel
  have hk : token (ascii "HEAD") = some .HEAD := by decide +kernel
  have e2 : ascii "HEAD" = 72 :: [69, 65, 68] := by decide +kernel
  rw [fieldsOf_word _ hH.2.1 hH.1.2, e, e2] at hR
  rw [e2] at hk
  simp only [Nat.cast_zero] at hR
  simp only [read, load, St.init, hR, Outcome.bind_ok, file, shift, hk]
  simp [readLine, nextLine, GetLine.getline_end, shift]

/-! ### C108 -/

/-- C108 for submitters: their records make no difference.
    Missing for the full claim: other records (`gedcom_unknown_record_drops_rest`) and lines (`gedcom_unknown_line_drops_rest`); the claim is false
    for them. -/
theorem gedcom_submitter_partial (fill : UInt8) (d fuel : Nat) (c c' : Doc) (as bs : List Record) (x t : Bytes) (ls : List (Nat × Bytes))
    (hr : c.records = as ++ bs) (hr' : c'.records = as ++ .subm x t ls :: bs) (hv : c.Valid) (hv' : c'.Valid) (hb : LinkedBack c.records) (hd : 2 ≤ d)
    (hf : c.front.length < fuel) (hf' : c'.front.length < fuel) : read fill d fuel c'.text = read fill d fuel c.text := by
  have hx : xrefs c'.records = xrefs c.records := by rw [hr, hr']; simp [xrefs]
  have hb' : LinkedBack c'.records := by
    intro as' r bs' h y hy
    rw [hr'] at h
    rcases List.append_eq_append_iff.1 h with ⟨z, rfl, h2⟩ | ⟨z, rfl, h2⟩
    · cases z with
      | nil =>
        cases h2
        simp [Record.links] at hy
      | cons q z =>
        obtain ⟨rfl, rfl⟩ := List.cons.inj h2
        have := hb (as ++ z) r bs' (by rw [hr]; simp) y hy
        simpa [xrefs] using this
    · cases z with
      | nil =>
        cases h2
        simp [Record.links] at hy
      | cons q z =>
        obtain ⟨rfl, rfl⟩ := List.cons.inj h2
        exact hb as' r (z ++ bs) (by rw [hr]; simp) y hy
  have h1 := gedcom_read_partial fill d fuel c [] hv hb hd hf
  have h2 := gedcom_read_partial fill d fuel c' [] hv' hb' hd hf'
  rw [List.append_nil] at h1 h2
  rw [h1, h2]
  have e1 : people c'.records = people c.records := by rw [hr, hr']; simp [people]
  have e2 : families c'.records = families c.records := by
    rw [families, families, hx]
    rw [hr, hr']
    simp
  rw [Doc.value, Doc.value, e1, e2]

example : sample.Valid ∧ Doc.Valid ⟨ascii "SOUR z", [(2, ascii "VERS 1")], [john, jane, smiths]⟩ ∧
    read 7 2 900 (Doc.text ⟨ascii "SOUR z", [(2, ascii "VERS 1")], [john, jane, smiths]⟩) = .ok sample.value :=
  ⟨by decide +kernel, by decide +kernel, read_eval 7 2 900 _ _ (by decide +kernel)⟩

/-- C108 fails for records: if one has an unknown tag, all that follows is left out, without notice. -/
theorem gedcom_unknown_record_drops_rest (fill : UInt8) (d fuel : Nat) (c : Doc) (x t : Bytes) (a : Arg) (rest : Bytes) (hv : c.Valid)
    (hb : LinkedBack c.records) (hx : Xref x) (ht : Word t) (hk : t ∉ knownTags) (ha : ValidArg a) (hd : 2 ≤ d) (hf : c.front.length < fuel) :
    read fill d fuel (c.front ++ (raw 0 (x ++ 32 :: (t ++ argBytes a)) ++ rest)) = .ok c.value := by
  obtain ⟨d, rfl⟩ : ∃ k, d = k + 2 := ⟨d - 2, by omega⟩
  have hT := text_tag t a ht ha
  have h := read_doc fill d _ _ _ (opening_raw fill (x ++ 32 :: (t ++ argBytes a)) rest (text_word _ _ hx.1.1 (by
    refine ⟨?_, ?_⟩ <;> rw [List.mem_cons, not_or]
    · exact ⟨by decide, hT.1⟩
    · exact ⟨by decide, hT.2⟩))) 0 [] (by
    rw [fieldsOf_cons _ _ hx.1.2.1 hx.1.1.2 hT.2, fieldsOf_tag t a ht ha]
    obtain ⟨b, y, rfl⟩ := List.exists_cons_of_ne_nil hx.1.2.2
    obtain rfl : b = 64 := by simpa using hx.2
    exact stops_unknown fill (d + 2) rest y t _ (unknown_token t hk)) c hv hb fuel hf
  rw [List.map_nil, List.append_nil] at h
  exact h

example : read 7 2 500 (Doc.front ⟨ascii "SOUR z", [], [john]⟩ ++ ascii "0 @S1@ SOUR\n1 TITL a book\n0 @I2@ INDI\n1 NAME Jane\n0 TRLR\n") =
    .ok (contents [] (people [john])) :=
  gedcom_unknown_record_drops_rest 7 2 500 ⟨ascii "SOUR z", [], [john]⟩ (ascii "@S1@") (ascii "SOUR") none
    (ascii "1 TITL a book\n0 @I2@ INDI\n1 NAME Jane\n0 TRLR\n") (by decide +kernel) (by
      intro as r bs h x hx
      obtain rfl : r = john := by
        have : r ∈ [john] := by rw [show [john] = as ++ r :: bs from h]; simp
        simpa using this
      simp [john, Record.links] at hx) (by decide +kernel) (by decide +kernel) (by decide +kernel) (by decide +kernel) (by decide) (by decide +kernel)

/-- C108 fails for lines of individuals: if one has an unknown tag, all that follows is left out, without notice. -/
theorem gedcom_unknown_line_drops_rest (fill : UInt8) (d fuel : Nat) (c : Doc) (x : Bytes) (items : List Item) (n t w v : Bytes) (l : Nat)
    (rest : Bytes) (hv : c.Valid) (hb : LinkedBack c.records) (hx : Xref x) (hi : ∀ i ∈ items, i.Valid) (hn : Text n) (hl : 1 ≤ l ∧ l ≤ 9)
    (ht : Word t) (hk : t ∉ knownTags) (hw : Word w) (hw1 : w.head? ≠ some 64) (hw2 : w ∉ knownTags) (hv' : Text v) (hd : 2 ≤ d)
    (hf : (c.front ++ Record.text (.indi x (.name (some n)) items)).length < fuel) :
    read fill d fuel (c.front ++ (raw 0 (x ++ ascii " INDI") ++ ((items ++ [Item.name (some n)]).flatMap Item.text ++ (line l t (some (w ++ 32 :: v)) ++ rest)))) =
      .ok (contents (families c.records) (people c.records ++ [person (items ++ [Item.name (some n)])])) := by
  obtain ⟨d, rfl⟩ : ∃ k, d = k + 2 := ⟨d - 2, by omega⟩
  have hn' : ValidArg (some n) := by rintro t ⟨⟩; exact hn
  have hT : Text (x ++ ascii " INDI") := text_word _ _ hx.1.1 ⟨by decide +kernel, by decide +kernel⟩
  have hO := opening_raw fill (x ++ ascii " INDI") ((items ++ [Item.name (some n)]).flatMap Item.text ++ (line l t (some (w ++ 32 :: v)) ++ rest)) hT
  have ef : fieldsOf (x ++ ascii " INDI") = [x, ascii "INDI"] := title_fields x "INDI" hx (known_word _ (by decide +kernel))
  rw [ef] at hO
  have ha : ValidArg (some (w ++ 32 :: v)) := by
    rintro _ ⟨⟩
    refine text_word _ _ hw.1 ⟨?_, ?_⟩ <;> rw [List.mem_cons, not_or]
    · exact ⟨by decide, hv'.1⟩
    · exact ⟨by decide, hv'.2⟩
  have hS := stops_individual fill d x hx items hi (some n) hn' (line l t (some (w ++ 32 :: v)) ++ rest) rest t (w :: fieldsOf v)
    (unknown_token t hk) l (by omega) (fun f is fs m => by
      have := readLine_line fill l hl.2 t (some (w ++ 32 :: v)) ht ha rest f is fs m
      rwa [show pieces (some (w ++ 32 :: v)) = w :: fieldsOf v from fieldsOf_cons w v hw.2.1 hw.1.2 hv'.2] at this)
    (stops_word fill (d + 2) rest w _ hw1 (unknown_token w hw2))
  have h := read_doc fill d _ _ _ hO _ _ hS c hv hb fuel (by
    simp only [Record.text, Record.body, List.length_append, raw_length, List.flatMap_append, List.flatMap_cons, List.flatMap_nil, List.append_nil] at hf ⊢
    omega)
  exact h

example : read 7 2 500 (Doc.front ⟨ascii "SOUR z", [], []⟩ ++
      ascii "0 @I1@ INDI\n1 NAME John /Smith/\n2 GIVN John F.\n1 SEX M\n0 @I2@ INDI\n1 NAME Jane\n0 TRLR\n") =
    .ok (contents [] [person [.name (some (ascii "John /Smith/"))]]) :=
  gedcom_unknown_line_drops_rest 7 2 500 ⟨ascii "SOUR z", [], []⟩ (ascii "@I1@") [] (ascii "John /Smith/") (ascii "GIVN") (ascii "John") (ascii "F.") 2
    (ascii "1 SEX M\n0 @I2@ INDI\n1 NAME Jane\n0 TRLR\n") (by decide +kernel) (by
      intro as r bs h
      cases as <;> cases h) (by decide +kernel) (by simp) (by decide +kernel) (by decide) (by decide +kernel) (by decide +kernel) (by decide +kernel)
    (by decide +kernel) (by decide +kernel) (by decide +kernel) (by decide) (by decide +kernel)

/-! ### C109 -/

/-- C109 if the first file holds no individuals and no families: the second call gives what a new reader gives.
    Missing for the full claim: first files with individuals or families (`gedcom_second_read_keeps_first`); the claim is false for them. -/
theorem gedcom_second_read_partial (fill : UInt8) (d fuel : Nat) (first second : Bytes) (hd : 2 ≤ d) (hf : 3 * first.length < fuel)
    (h1 : read fill d fuel first = .ok .nil) (h2 : second ≠ []) : readAgain fill d fuel first second = read fill d fuel second := by
  obtain ⟨d, rfl⟩ : ∃ k, d = k + 2 := ⟨d - 2, by omega⟩
  have h := load_fine fill d fuel first .init _ _ _ (good_init first) (by simpa [size, St.init] using hf)
  rw [readAgain, read]
  rw [read] at h1
  cases hl : load fill (d + 2) fuel first .init with
  | ok s =>
    rw [hl] at h h1
    have hs : s.val = .nil := by simpa using h1
    have h3 : Good _ _ _ s := h
    have e1 : s.inds = [] ∧ s.fams = [] := by
      unfold St.val at hs
      split at hs <;> simp_all
    have e2 : s.imap = [] := by
      rw [List.eq_nil_iff_forall_not_mem]
      intro p hp
      obtain ⟨i, -, k, hk, -⟩ := h3.imap.2 p hp
      rw [e1.1] at hk
      simp at hk
    obtain ⟨r, f, is, fs, m⟩ := s
    obtain ⟨rfl, rfl⟩ := e1
    cases e2
    rw [Outcome.bind_ok, St.init, load_field fill (d + 2) fuel second h2 (r' := []) f (g := [])]
  | _ => rw [hl] at h1; cases h1

example : read 7 2 500 (ascii "0 HEAD\n1 SOUR z\n0 TRLR\n") = .ok .nil ∧ sample.text ≠ [] :=
  ⟨read_eval 7 2 500 _ _ (by decide +kernel), by decide +kernel⟩

/-- C109 fails: whatever a reader has returned, what it returns for the next file begins with it. -/
theorem gedcom_second_read_keeps_first (fill : UInt8) (d fuel : Nat) (first second : Bytes) (v w : Val) (hd : 2 ≤ d)
    (hf : 3 * first.length + 3 * second.length < fuel) (h1 : read fill d fuel first = .ok v) (h2 : readAgain fill d fuel first second = .ok w) :
    ∃ fs ps fs' ps', v = contents fs ps ∧ w = contents (fs ++ fs') (ps ++ ps') := by
  obtain ⟨d, rfl⟩ : ∃ k, d = k + 2 := ⟨d - 2, by omega⟩
  have h := load_fine fill d fuel first .init _ _ _ (good_init first) (by simp [size, St.init]; omega)
  rw [readAgain] at h2
  rw [read] at h1
  cases hl : load fill (d + 2) fuel first .init with
  | ok s =>
    rw [hl] at h h1 h2
    have h3 : Good _ _ _ s := h
    rw [Outcome.bind_ok] at h2
    have h4 := load_fine fill d fuel second s _ _ _ (h3.again second) (by
      have := h3.small
      simp only [size] at this ⊢
      omega)
    cases hl2 : load fill (d + 2) fuel second s with
    | ok s2 =>
      rw [hl2] at h2 h4
      have h5 : Good _ _ _ s2 := h4
      obtain ⟨is, hi⟩ := h5.keepI
      obtain ⟨fs, hg⟩ := h5.keepF
      refine ⟨s.fams.map Fam.val, s.inds.map Indi.val, fs.map Fam.val, is.map Indi.val, ?_, ?_⟩
      · rw [← val_contents]
        simpa using h1.symm
      · rw [← List.map_append, ← List.map_append, hi, hg, ← val_contents]
        simpa using h2.symm
    | _ => rw [hl2] at h2; cases h2
  | _ => rw [hl] at h1; cases h1

example : ∃ v, read 7 2 900 (Doc.text ⟨ascii "SOUR z", [], [john]⟩) = .ok v ∧
    readAgain 7 2 900 (Doc.text ⟨ascii "SOUR z", [], [john]⟩) (Doc.text ⟨ascii "SOUR z", [], [jane]⟩) = .ok (contents [] (people [john, jane])) ∧
    read 7 2 900 (Doc.text ⟨ascii "SOUR z", [], [jane]⟩) = .ok (contents [] (people [jane])) :=
  ⟨contents [] (people [john]), read_eval 7 2 900 _ _ (by decide +kernel), readAgain_eval 7 2 900 _ _ _ (by decide +kernel),
    read_eval 7 2 900 _ _ (by decide +kernel)⟩

#print axioms gedcom_read_partial
#print axioms gedcom_unterminated_trailer
#print axioms gedcom_forward_link_lost
#print axioms gedcom_forward_family_throws
#print axioms gedcom_marriage_alone
#print axioms gedcom_empty_record
#print axioms gedcom_any_partial
#print axioms gedcom_empty_file
#print axioms gedcom_source_undefined
#print axioms gedcom_truncated_undefined
#print axioms gedcom_submitter_partial
#print axioms gedcom_unknown_record_drops_rest
#print axioms gedcom_unknown_line_drops_rest
#print axioms gedcom_second_read_partial
#print axioms gedcom_second_read_keeps_first

end Libube.Ged

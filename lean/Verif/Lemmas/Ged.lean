import Verif.Model.Ged
import Verif.Spec.Ged
import Verif.Lemmas.Ini
import Verif.Lemmas.JsonNum
import Verif.Props.StringFns

/-! # Lemmas about reading GEDCOM files -/

namespace Libube.Ged

open Libube Libube.CString Libube.StringFns Libube.StringSpec Libube.GedSpec

/-! ### Lines and their fields -/

/-- The fields of a text. -/
def fieldsOf (t : Bytes) : List Bytes :=
  match split (t.length + 1) t [32] 0 with
  | .ok ps => ps
  | _ => []

theorem fieldsOf_spec (t : Bytes) (h : (0 : UInt8) ∉ t) :
    split (t.length + 1) t [32] 0 = .ok (fieldsOf t) ∧ join (fieldsOf t) [32] = t ∧ fieldsOf t ≠ [] ∧
      ∀ w ∈ fieldsOf t, (32 : UInt8) ∉ w ∧ (0 : UInt8) ∉ w := by
  obtain ⟨ps, h1, h2⟩ := split_then_join t [32] h (by decide) (by decide)
  obtain ⟨qs, h3, h4⟩ := split_pieces_no_separator t [32] h (by decide) (by decide) (t.length + 1) (by omega)
  have e1 := h1 (t.length + 1) (by omega)
  have e2 : fieldsOf t = ps := by simp [fieldsOf, e1]
  rw [e1] at h3
  cases h3
  have hj : joined [32] ps = t := by rw [← h2, join_eq_joined, cstr_of_no_nul _ (by decide)]
  have hne : ps ≠ [] := by
    rintro rfl
    obtain ⟨qs, h5, h6⟩ := split_spec t [32] h (by decide) (by decide) (t.length + 1) (by omega)
    rw [e1] at h5
    cases h5
    cases h6
  refine ⟨by rw [e2]; exact e1, by rw [e2]; exact h2, by rw [e2]; exact hne, ?_⟩
  rw [e2]
  intro w hw
  refine ⟨fun h32 => ?_, fun h0 => ?_⟩
  · obtain ⟨a, b, rfl⟩ := List.append_of_mem h32
    exact h4 _ hw ⟨a, b, by simp⟩
  · apply h
    rw [← hj]
    obtain ⟨x, xs, rfl⟩ := List.exists_cons_of_ne_nil hne
    rw [joined_cons]
    rcases List.mem_cons.1 hw with rfl | hw
    · simp [h0]
    · exact List.mem_append_right _ (List.mem_flatMap.2 ⟨w, hw, by simp [h0]⟩)

theorem fieldsOf_cons (w t : Bytes) (hw : (32 : UInt8) ∉ w) (hw0 : (0 : UInt8) ∉ w) (h : (0 : UInt8) ∉ t) :
    fieldsOf (w ++ 32 :: t) = w :: fieldsOf t := by
  obtain ⟨h1, h2, h3, h4⟩ := fieldsOf_spec t h
  have e : join (w :: fieldsOf t) [32] = w ++ 32 :: t := by
    rw [join_eq_joined, cstr_of_no_nul _ (by decide)] at h2 ⊢
    obtain ⟨x, xs, hx⟩ := List.exists_cons_of_ne_nil h3
    rw [hx, joined_cons] at h2
    rw [hx, joined_cons, ← h2]
    simp
  have := join_then_split (w :: fieldsOf t) 32 (by decide) (by simp) (by
    intro x hx
    rcases List.mem_cons.1 hx with rfl | hx
    · exact ⟨hw, hw0⟩
    · exact h4 x hx) ((w ++ 32 :: t).length + 1) (by rw [e]; omega)
  rw [e] at this
  rw [fieldsOf, this]

theorem fieldsOf_word (w : Bytes) (hw : (32 : UInt8) ∉ w) (hw0 : (0 : UInt8) ∉ w) : fieldsOf w = [w] := by
  have e : join [w] [32] = w := by rw [join_eq_joined]; simp [joined]
  have := join_then_split [w] 32 (by decide) (by simp) (by simp [hw, hw0]) (w.length + 1) (by rw [e]; omega)
  rw [e] at this
  rw [fieldsOf, this]

/-- The fields after a tag. -/
def pieces : Arg → List Bytes
  | none => []
  | some t => fieldsOf t

theorem pieces_join (a : Arg) (h : ValidArg a) : join (pieces a) [32] = argText a := by
  cases a with
  | none => rfl
  | some t => exact (fieldsOf_spec t (h t rfl).2).2.1

theorem pieces_word (w : Bytes) (h : Word w) : pieces (some w) = [w] := fieldsOf_word w h.2.1 h.1.2

theorem fieldsOf_tag (tag : Bytes) (a : Arg) (ht : Word tag) (ha : ValidArg a) : fieldsOf (tag ++ argBytes a) = tag :: pieces a := by
  cases a with
  | none => simp only [argBytes, List.append_nil, pieces]; exact fieldsOf_word _ ht.2.1 ht.1.2
  | some t => exact fieldsOf_cons tag t ht.2.1 ht.1.2 (ha t rfl).2

theorem text_tag (tag : Bytes) (a : Arg) (ht : Word tag) (ha : ValidArg a) : Text (tag ++ argBytes a) := by
  cases a with
  | none => simpa [argBytes] using ht.1
  | some t =>
    obtain ⟨h1, h2⟩ := ha t rfl
    refine ⟨?_, ?_⟩ <;> simp [argBytes, ht.1.1, ht.1.2, h1, h2]

theorem readNum_digit (l : Nat) (h : l ≤ 9) : ∃ b, readNum 32 [UInt8.ofNat (48 + l)] = some b ∧ b.toInt = l := by
  interval_cases l <;> exact ⟨_, rfl, by decide⟩

/-- Reading a line. -/
theorem readLine_raw (fill : UInt8) (l : Nat) (hl : l ≤ 9) (t rest : Bytes) (ht : Text t) (f : List Bytes) (is : List Indi) (fs : List Fam)
    (m : List (Val × Val)) : readLine fill ⟨raw l t ++ rest, f, is, fs, m⟩ = .ok ((l : Int), ⟨rest, fieldsOf t, is, fs, m⟩) := by
  have hd : (32 : UInt8) ∉ [UInt8.ofNat (48 + l)] ∧ (0 : UInt8) ∉ [UInt8.ofNat (48 + l)] ∧ (10 : UInt8) ∉ [UInt8.ofNat (48 + l)] := by
    interval_cases l <;> decide
  have e1 : raw l t ++ rest = (([UInt8.ofNat (48 + l)] ++ 32 :: t) ++ 10 :: rest) := by simp [raw]
  have hg := GetLine.getline_line fill [] ([UInt8.ofNat (48 + l)] ++ 32 :: t) rest (by
    rw [List.mem_append, List.mem_cons (a := 10) (b := 32), not_or, not_or]
    exact ⟨hd.2.2, by decide, ht.1⟩)
  have h0 : (0 : UInt8) ∉ [UInt8.ofNat (48 + l)] ++ 32 :: t := by
    rw [List.mem_append, List.mem_cons (a := 0) (b := 32), not_or, not_or]
    exact ⟨hd.2.1, by decide, ht.2⟩
  obtain ⟨b, hb, hbl⟩ := readNum_digit l hl
  unfold readLine nextLine
  rw [e1]
  simp only [hg, Outcome.bind_ok, (fieldsOf_spec _ h0).1]
  rw [fieldsOf_cons _ t hd.1 hd.2.1 ht.2]
  simp only [shift, castInt, castTo, Outcome.bind_ok, hb, hbl]

theorem readLine_line (fill : UInt8) (l : Nat) (hl : l ≤ 9) (tag : Bytes) (a : Arg) (ht : Word tag) (ha : ValidArg a) (rest : Bytes)
    (f : List Bytes) (is : List Indi) (fs : List Fam) (m : List (Val × Val)) :
    readLine fill ⟨line l tag a ++ rest, f, is, fs, m⟩ = .ok ((l : Int), ⟨rest, tag :: pieces a, is, fs, m⟩) := by
  rw [line, readLine_raw fill l hl _ rest (text_tag tag a ht ha), fieldsOf_tag tag a ht ha]

/-! ### Tags -/

theorem known_word : ∀ t ∈ knownTags, Word t := by
  unfold Word Text
  decide +kernel

theorem event_known : ∀ t ∈ eventTags, t ∈ knownTags := by decide +kernel

theorem cont_known : ∀ t ∈ contTags, t ∈ knownTags := by decide +kernel

theorem known_token : ∀ t ∈ knownTags, (token t).isSome = true := by decide +kernel

theorem event_token : ∀ t ∈ eventTags, token t = some .BIRT ∨ token t = some .DEAT ∨ token t = some .CHR ∨ token t = some .BURI := by
  decide +kernel

theorem cont_token : ∀ t ∈ contTags, token t = some .CONT ∨ token t = some .CONC := by decide +kernel

/-- Tags of an individual without effect. -/
def Tok.idle : Tok → Bool
  | .BIRT | .DEAT | .CHR | .BURI | .CONT | .CONC | .NAME | .TITL | .SEX => false
  | _ => true

/-- Tags of a family without effect. -/
def Tok.famIdle : Tok → Bool
  | .HUSB | .WIFE | .CHIL | .MARR => false
  | _ => true

theorem idle_token : ∀ t ∈ knownTags, t ∉ eventTags → t ∉ contTags → t ∉ ["NAME", "TITL", "SEX"].map ascii →
    (token t).any Tok.idle = true := by decide +kernel

theorem famIdle_token : ∀ t ∈ knownTags, t ∉ ["HUSB", "WIFE", "CHIL", "MARR"].map ascii → (token t).any Tok.famIdle = true := by
  decide +kernel

/-! ### Lines that are skipped -/

theorem skip_lines (fill : UInt8) (L : Nat) (ls : List (Nat × Bytes)) (hv : ∀ l ∈ ls, L ≤ l.1 ∧ l.1 ≤ 9 ∧ Text l.2) (X : Bytes) (l : Int) (s' : St)
    (is : List Indi) (fs : List Fam) (m : List (Val × Val)) (hX : ∀ f, readLine fill ⟨X, f, is, fs, m⟩ = .ok (l, s')) (hl : l < L) (n : Nat)
    (hn : ls.length < n) (f : List Bytes) : skip fill L n ⟨rawText ls ++ X, f, is, fs, m⟩ = .ok (l, s') := by
  induction ls generalizing n f with
  | nil =>
    obtain ⟨n, rfl⟩ : ∃ k, n = k + 1 := ⟨n - 1, by omega⟩
    simp only [rawText, List.flatMap_nil, List.nil_append, skip, hX, Outcome.bind_ok]
    rw [if_neg (by omega)]
  | cons r ls ih =>
    obtain ⟨n, rfl⟩ : ∃ k, n = k + 1 := ⟨n - 1, by omega⟩
    obtain ⟨h1, h2, h3⟩ := hv r (by simp)
    have e : rawText (r :: ls) ++ X = raw r.1 r.2 ++ (rawText ls ++ X) := by simp [rawText]
    rw [e, skip, readLine_raw fill r.1 h2 _ _ h3]
    simp only [Outcome.bind_ok]
    rw [if_pos (by omega)]
    exact ih (fun l hl => hv l (by simp [hl])) n (by simpa using hn) _

theorem subText_raw (cs : List Sub) : subText cs = rawText (cs.map fun c => (2, c.tag ++ argBytes c.arg)) := by
  simp [subText, rawText, List.flatMap_map, line]

theorem skip_subs (fill : UInt8) (cs : List Sub) (hv : ∀ c ∈ cs, c.Valid) (X : Bytes) (l : Int) (s' : St)
    (is : List Indi) (fs : List Fam) (m : List (Val × Val)) (hX : ∀ f, readLine fill ⟨X, f, is, fs, m⟩ = .ok (l, s')) (hl : l < 2) (n : Nat)
    (hn : cs.length < n) (f : List Bytes) : skip fill 2 n ⟨subText cs ++ X, f, is, fs, m⟩ = .ok (l, s') := by
  rw [subText_raw]
  refine skip_lines fill 2 _ ?_ X l s' is fs m hX (by simpa using hl) n (by simpa using hn) f
  intro r hr
  obtain ⟨c, hc, rfl⟩ := List.mem_map.1 hr
  exact ⟨Nat.le_refl _, by simp, text_tag _ _ (known_word _ (hv c hc).1) (hv c hc).2⟩

theorem birth_idle (fill : UInt8) (L : Int) (n : Nat) (level : Int) (t : Bytes) (k : Tok) (ht : token t = some k) (hk : k ≠ .CONT ∧ k ≠ .CONC)
    (r : Bytes) (f : List Bytes) (is : List Indi) (fs : List Fam) (m : List (Val × Val)) (l : Int) (s' : St)
    (hX : readLine fill ⟨r, f, is, fs, m⟩ = .ok (l, s')) :
    birth fill L (n + 1) level ⟨r, t :: f, is, fs, m⟩ = if l ≥ L then birth fill L n l s' else .ok (l, s') := by
  cases k <;> simp_all [birth, shift]

theorem birth_cont (fill : UInt8) (L : Int) (n : Nat) (level : Int) (t : Bytes) (ht : token t = some .CONT ∨ token t = some .CONC)
    (r : Bytes) (f : List Bytes) (is : List Indi) (fs : List Fam) (m : List (Val × Val)) (l : Int) (s' : St)
    (hX : skip fill level n ⟨r, f, is, fs, m⟩ = .ok (l, s')) :
    birth fill L (n + 1) level ⟨r, t :: f, is, fs, m⟩ = if l ≥ L then birth fill L n l s' else .ok (l, s') := by
  rcases ht with ht | ht <;> simp [birth, shift, ht, hX]

/-- The lines below an event. -/
theorem birth_subs (fill : UInt8) (cs : List Sub) (c : Sub) (hv : ∀ b ∈ c :: cs, b.Valid) (X : Bytes) (l : Int) (s' : St)
    (is : List Indi) (fs : List Fam) (m : List (Val × Val)) (hX : ∀ f, readLine fill ⟨X, f, is, fs, m⟩ = .ok (l, s')) (hl : l < 2) (n : Nat)
    (hn : cs.length + 1 < n) : birth fill 2 n 2 ⟨subText cs ++ X, c.tag :: pieces c.arg, is, fs, m⟩ = .ok (l, s') := by
  induction cs generalizing c n with
  | nil =>
    obtain ⟨n, rfl⟩ : ∃ k, n = k + 1 := ⟨n - 1, by omega⟩
    obtain ⟨k, hk⟩ := Option.isSome_iff_exists.1 (known_token _ (hv c (by simp)).1)
    by_cases hc : k ≠ .CONT ∧ k ≠ .CONC
    · rw [birth_idle fill 2 n 2 c.tag k hk hc _ _ _ _ _ l s' (by simpa [subText] using hX _), if_neg (by omega)]
    · rw [birth_cont fill 2 n 2 c.tag (by rw [hk]; simp; tauto) _ _ _ _ _ l s'
        (skip_subs fill [] (by simp) X l s' is fs m hX hl n (by simp at hn ⊢; omega) _), if_neg (by omega)]
  | cons d cs ih =>
    obtain ⟨n, rfl⟩ : ∃ k, n = k + 1 := ⟨n - 1, by omega⟩
    obtain ⟨k, hk⟩ := Option.isSome_iff_exists.1 (known_token _ (hv c (by simp)).1)
    have hd := hv d (by simp)
    by_cases hc : k ≠ .CONT ∧ k ≠ .CONC
    · have e : subText (d :: cs) ++ X = line 2 d.tag d.arg ++ (subText cs ++ X) := by simp [subText]
      rw [birth_idle fill 2 n 2 c.tag k hk hc _ _ _ _ _ 2 _ (by
        rw [e, readLine_line fill 2 (by omega) d.tag d.arg (known_word _ hd.1) hd.2]; rfl), if_pos (by omega)]
      exact ih d (fun b hb => hv b (List.mem_cons_of_mem _ hb)) n (by simp at hn; omega)
    · rw [birth_cont fill 2 n 2 c.tag (by rw [hk]; simp; tauto) _ _ _ _ _ l s'
        (skip_subs fill (d :: cs) (fun b hb => hv b (List.mem_cons_of_mem _ hb)) X l s' is fs m hX hl n (by simp at hn ⊢; omega) _),
        if_neg (by omega)]

end Libube.Ged

namespace Libube.Ged

open Libube Libube.CString Libube.StringFns Libube.StringSpec Libube.GedSpec

/-! ### Individuals -/

/-- The tag of the first line. -/
def _root_.Libube.GedSpec.Item.tag : Item → Bytes
  | .name _ => ascii "NAME"
  | .titl _ => ascii "TITL"
  | .sex _ => ascii "SEX"
  | .event t _ _ => t
  | .other t _ _ => t

/-- The text of the first line. -/
def _root_.Libube.GedSpec.Item.arg : Item → Arg
  | .name a => a
  | .titl a => a
  | .sex a => a
  | .event _ a _ => a
  | .other _ a _ => a

/-- The lines below. -/
def _root_.Libube.GedSpec.Item.below : Item → List Sub
  | .event _ _ cs => cs
  | .other _ _ cs => cs
  | _ => []

/-- What an item does to the map of the individual. -/
def _root_.Libube.GedSpec.Item.apply (p : Indi) : Item → Indi
  | .name a => { p with name := .chars (argText a) }
  | .titl a => { p with titl := .chars (argText a) }
  | .sex a => { p with sex := .chars (argText a) }
  | _ => p

theorem item_text (i : Item) : i.text = line 1 i.tag i.arg ++ subText i.below := by
  cases i <;> simp [Item.text, Item.tag, Item.arg, Item.below, subText]

theorem item_tag (i : Item) (h : i.Valid) : Word i.tag ∧ ValidArg i.arg := by
  cases i with
  | name a => exact ⟨known_word _ (show ascii "NAME" ∈ knownTags by decide +kernel), h⟩
  | titl a => exact ⟨known_word _ (show ascii "TITL" ∈ knownTags by decide +kernel), h⟩
  | sex a => exact ⟨known_word _ (show ascii "SEX" ∈ knownTags by decide +kernel), h⟩
  | event t a cs => exact ⟨known_word _ (event_known _ h.1), h.2.1⟩
  | other t a cs => exact ⟨known_word _ h.1, h.2.2.2.2.1⟩

theorem indi_idle (fill : UInt8) (L : Int) (n : Nat) (level : Int) (t : Bytes) (k : Tok) (ht : token t = some k) (hk : k.idle = true) (p : Indi)
    (r : Bytes) (f : List Bytes) (is : List Indi) (fs : List Fam) (m : List (Val × Val)) (l : Int) (s' : St)
    (hX : readLine fill ⟨r, f, is, fs, m⟩ = .ok (l, s')) :
    indi fill L (n + 1) level p ⟨r, t :: f, is, fs, m⟩ = if l ≥ L then indi fill L n l p s' else .ok (p, s') := by
  cases k <;> simp_all [indi, shift, Tok.idle]

theorem indi_attr (fill : UInt8) (L : Int) (n : Nat) (level : Int) (i : Item) (hi : ∃ a, i = .name a ∨ i = .titl a ∨ i = .sex a)
    (hv : i.Valid) (p : Indi) (r : Bytes) (is : List Indi) (fs : List Fam) (m : List (Val × Val)) (l : Int) (s' : St)
    (hX : readLine fill ⟨r, pieces i.arg, is, fs, m⟩ = .ok (l, s')) :
    indi fill L (n + 1) level p ⟨r, i.tag :: pieces i.arg, is, fs, m⟩ = if l ≥ L then indi fill L n l (i.apply p) s' else .ok (i.apply p, s') := by
  have hj := pieces_join _ (item_tag i hv).2
  obtain ⟨a, rfl | rfl | rfl⟩ := hi
  · have ht : token (Item.name a).tag = some .NAME := show token (ascii "NAME") = some .NAME by decide +kernel
    simp_all [indi, shift, Item.apply, Item.arg]
  · have ht : token (Item.titl a).tag = some .TITL := show token (ascii "TITL") = some .TITL by decide +kernel
    simp_all [indi, shift, Item.apply, Item.arg]
  · have ht : token (Item.sex a).tag = some .SEX := show token (ascii "SEX") = some .SEX by decide +kernel
    simp_all [indi, shift, Item.apply, Item.arg]

theorem indi_event (fill : UInt8) (L : Int) (n : Nat) (level : Int) (t : Bytes)
    (ht : token t = some .BIRT ∨ token t = some .DEAT ∨ token t = some .CHR ∨ token t = some .BURI) (p : Indi)
    (r : Bytes) (f : List Bytes) (is : List Indi) (fs : List Fam) (m : List (Val × Val)) (l : Int) (s' : St)
    (hX : readLine fill ⟨r, f, is, fs, m⟩ = .ok (l, s')) (hl : ¬ l > L) :
    indi fill L (n + 1) level p ⟨r, t :: f, is, fs, m⟩ = if l ≥ L then indi fill L n l p s' else .ok (p, s') := by
  rcases ht with ht | ht | ht | ht <;> simp [indi, shift, ht, hX, hl]

theorem indi_birth (fill : UInt8) (L : Int) (n : Nat) (level : Int) (t : Bytes)
    (ht : token t = some .BIRT ∨ token t = some .DEAT ∨ token t = some .CHR ∨ token t = some .BURI) (p : Indi)
    (r : Bytes) (f : List Bytes) (is : List Indi) (fs : List Fam) (m : List (Val × Val)) (l1 l : Int) (s1 s' : St)
    (h1 : readLine fill ⟨r, f, is, fs, m⟩ = .ok (l1, s1)) (hl : l1 > L) (h2 : birth fill l1 n l1 s1 = .ok (l, s')) :
    indi fill L (n + 1) level p ⟨r, t :: f, is, fs, m⟩ = if l ≥ L then indi fill L n l p s' else .ok (p, s') := by
  rcases ht with ht | ht | ht | ht <;> simp [indi, shift, ht, h1, hl, h2]

theorem indi_cont (fill : UInt8) (L : Int) (n : Nat) (level : Int) (t : Bytes) (ht : token t = some .CONT ∨ token t = some .CONC) (p : Indi)
    (r : Bytes) (f : List Bytes) (is : List Indi) (fs : List Fam) (m : List (Val × Val)) (l : Int) (s' : St)
    (hX : skip fill level n ⟨r, f, is, fs, m⟩ = .ok (l, s')) :
    indi fill L (n + 1) level p ⟨r, t :: f, is, fs, m⟩ = if l ≥ L then indi fill L n l p s' else .ok (p, s') := by
  rcases ht with ht | ht <;> simp [indi, shift, ht, hX]

/-- The next line has level 0. -/
def Opening (fill : UInt8) (X X' : Bytes) (f' : List Bytes) : Prop :=
  ∀ f is fs m, readLine fill ⟨X, f, is, fs, m⟩ = .ok (0, ⟨X', f', is, fs, m⟩)

theorem opening_raw (fill : UInt8) (t rest : Bytes) (ht : Text t) : Opening fill (raw 0 t ++ rest) rest (fieldsOf t) :=
  fun f is fs m => readLine_raw fill 0 (by omega) t rest ht f is fs m

/-- How many iterations an item takes at most. -/
def _root_.Libube.GedSpec.Item.count (i : Item) : Nat := 2 + i.below.length

/-- The items that follow, read from the first line on. -/
def Tail (fill : UInt8) (is : List Indi) (fs : List Fam) (m : List (Val × Val)) (items : List Item) (X : Bytes) (s1 : St) : Prop :=
  ∃ l s', (∀ f, readLine fill ⟨items.flatMap Item.text ++ X, f, is, fs, m⟩ = .ok (l, s')) ∧ l < 2 ∧
    ∀ n p, (items.map Item.count).sum < n → (if l ≥ 1 then indi fill 1 n l p s' else .ok (p, s')) = .ok (items.foldl Item.apply p, s1)

theorem indi_item (fill : UInt8) (is : List Indi) (fs : List Fam) (m : List (Val × Val)) (items : List Item) (X : Bytes) (s1 : St)
    (h : Tail fill is fs m items X s1) (i : Item) (hv : i.Valid) (n : Nat) (p : Indi) (hn : ((i :: items).map Item.count).sum < n) :
    indi fill 1 n 1 p ⟨subText i.below ++ (items.flatMap Item.text ++ X), i.tag :: pieces i.arg, is, fs, m⟩ =
      .ok ((i :: items).foldl Item.apply p, s1) := by
  obtain ⟨l, s', h1, h2, h3⟩ := h
  obtain ⟨n, rfl⟩ : ∃ k, n = k + 1 := ⟨n - 1, by omega⟩
  have hn' : 2 + i.below.length + (items.map Item.count).sum < n + 1 := by simpa [Item.count] using hn
  rw [List.foldl_cons]
  have attr : (∃ a, i = .name a ∨ i = .titl a ∨ i = .sex a) →
      indi fill 1 (n + 1) 1 p ⟨subText i.below ++ (items.flatMap Item.text ++ X), i.tag :: pieces i.arg, is, fs, m⟩ =
        .ok (items.foldl Item.apply (i.apply p), s1) := by
    intro hi
    have hb : i.below = [] := by obtain ⟨a, rfl | rfl | rfl⟩ := hi <;> rfl
    rw [indi_attr fill 1 n 1 i hi hv p _ is fs m l s' (by rw [hb]; exact h1 _)]
    exact h3 n _ (by omega)
  cases i with
  | name a => exact attr ⟨a, by simp⟩
  | titl a => exact attr ⟨a, by simp⟩
  | sex a => exact attr ⟨a, by simp⟩
  | event t a cs =>
    cases cs with
    | nil =>
      refine (indi_event fill 1 n 1 t (event_token t hv.1) p _ _ is fs m l s' (h1 _) (by omega)).trans ?_
      exact h3 n _ (by omega)
    | cons c cs =>
      have hc := hv.2.2 c (by simp)
      simp only [Item.below, List.length_cons] at hn'
      have e : subText (c :: cs) ++ (items.flatMap Item.text ++ X) = line 2 c.tag c.arg ++ (subText cs ++ (items.flatMap Item.text ++ X)) := by
        simp [subText]
      refine (indi_birth fill 1 n 1 t (event_token t hv.1) p _ _ is fs m 2 l _ s' (by
        show readLine fill ⟨subText (c :: cs) ++ _, _, _, _, _⟩ = _
        rw [e, readLine_line fill 2 (by omega) c.tag c.arg (known_word _ hc.1) hc.2]; rfl) (by omega)
        (birth_subs fill cs c hv.2.2 _ l s' is fs m h1 h2 n (by omega))).trans ?_
      exact h3 n _ (by omega)
  | other t a cs =>
    obtain ⟨hk, h4, h5, h6, h7, h8⟩ := hv
    obtain ⟨k, hk1, hk2⟩ : ∃ k, token t = some k ∧ k.idle = true := by simpa [Option.any_eq_true] using idle_token t hk h4 h5 h6
    cases cs with
    | nil =>
      refine (indi_idle fill 1 n 1 t k hk1 hk2 p _ _ is fs m l s' (h1 _)).trans ?_
      exact h3 n _ (by omega)
    | cons c cs =>
      have hc := h8 c (by simp)
      simp only [Item.below, List.length_cons] at hn'
      have e : subText (c :: cs) ++ (items.flatMap Item.text ++ X) = line 2 c.tag c.arg ++ (subText cs ++ (items.flatMap Item.text ++ X)) := by
        simp [subText]
      refine (indi_idle fill 1 n 1 t k hk1 hk2 p _ _ is fs m 2 _ (by
        show readLine fill ⟨subText (c :: cs) ++ _, _, _, _, _⟩ = _
        rw [e, readLine_line fill 2 (by omega) c.tag c.arg (known_word _ (cont_known _ hc.1)) hc.2]; rfl)).trans ?_
      rw [if_pos (by omega)]
      obtain ⟨n, rfl⟩ : ∃ k, n = k + 1 := ⟨n - 1, by omega⟩
      refine (indi_cont fill 1 n 2 c.tag (cont_token _ hc.1) p _ _ is fs m l s'
        (skip_subs fill cs (fun b hb => ⟨cont_known _ (h8 b (by simp [hb])).1, (h8 b (by simp [hb])).2⟩) _ l s' is fs m h1 h2 n (by omega) _)).trans ?_
      exact h3 n _ (by omega)

theorem tail_cons (fill : UInt8) (is : List Indi) (fs : List Fam) (m : List (Val × Val)) (items : List Item) (X : Bytes) (s1 : St)
    (ih : Tail fill is fs m items X s1) (i : Item) (hv : i.Valid) : Tail fill is fs m (i :: items) X s1 := by
  have hi := item_tag i hv
  refine ⟨1, ⟨subText i.below ++ (items.flatMap Item.text ++ X), i.tag :: pieces i.arg, is, fs, m⟩, fun f => ?_, by omega, fun n p hn => ?_⟩
  · have e : (i :: items).flatMap Item.text ++ X = line 1 i.tag i.arg ++ (subText i.below ++ (items.flatMap Item.text ++ X)) := by
      simp [item_text]
    rw [e, readLine_line fill 1 (by omega) i.tag i.arg hi.1 hi.2]
    rfl
  · rw [if_pos (by omega)]
    exact indi_item fill is fs m items _ _ ih i hv n p hn

theorem tail_items (fill : UInt8) (is : List Indi) (fs : List Fam) (m : List (Val × Val)) (items : List Item) (hv : ∀ i ∈ items, i.Valid)
    (X X' : Bytes) (f' : List Bytes) (hX : Opening fill X X' f') : Tail fill is fs m items X ⟨X', f', is, fs, m⟩ := by
  induction items with
  | nil =>
    refine ⟨0, _, fun f => by simpa using hX f is fs m, by omega, fun n p hn => ?_⟩
    rw [if_neg (by omega)]
    rfl
  | cons i items ih => exact tail_cons fill is fs m items X _ (ih fun j hj => hv j (by simp [hj])) i (hv i (by simp))

/-- A name, then a line with an unknown tag. -/
theorem tail_unknown (fill : UInt8) (is : List Indi) (fs : List Fam) (m : List (Val × Val)) (items : List Item) (hv : ∀ i ∈ items, i.Valid)
    (a : Arg) (ha : ValidArg a) (X X' t : Bytes) (f' : List Bytes) (ht : token t = none) (l : Int) (hl : 1 ≤ l)
    (hX : ∀ f, readLine fill ⟨X, f, is, fs, m⟩ = .ok (l, ⟨X', t :: f', is, fs, m⟩)) :
    Tail fill is fs m (items ++ [.name a]) X ⟨X', f', is, fs, m⟩ := by
  induction items with
  | nil =>
    have hi := item_tag (.name a) ha
    refine ⟨1, ⟨X, Item.tag (.name a) :: pieces a, is, fs, m⟩, fun f => ?_, by omega, fun n p hn => ?_⟩
    · have e : ([] ++ [Item.name a]).flatMap Item.text ++ X = line 1 (Item.tag (.name a)) a ++ X := by
        simp [item_text, Item.arg, Item.below, subText]
      rw [e, readLine_line fill 1 (by omega) _ a hi.1 ha]
      rfl
    · simp only [List.nil_append, List.map_cons, List.map_nil, List.sum_cons, List.sum_nil, Item.count, Item.below, List.length_nil] at hn
      rw [if_pos (by omega)]
      obtain ⟨n, rfl⟩ : ∃ k, n = k + 2 := ⟨n - 2, by omega⟩
      have h := indi_attr fill 1 (n + 1) 1 (.name a) ⟨a, by simp⟩ ha p X is fs m l _ (hX _)
      refine h.trans ?_
      rw [if_pos (by omega)]
      simp [indi, shift, ht]
  | cons i items ih => exact tail_cons fill is fs m _ X _ (ih fun j hj => hv j (by simp [hj])) i (hv i (by simp))

end Libube.Ged

namespace Libube.Ged

open Libube Libube.CString Libube.StringFns Libube.StringSpec Libube.GedSpec

/-! ### Families -/

/-- The tag of the first line. -/
def _root_.Libube.GedSpec.FamItem.tag : FamItem → Bytes
  | .husb _ => ascii "HUSB"
  | .wife _ => ascii "WIFE"
  | .chil _ => ascii "CHIL"
  | .marr _ _ _ => ascii "MARR"
  | .other t _ => t

/-- The text of the first line. -/
def _root_.Libube.GedSpec.FamItem.arg : FamItem → Arg
  | .husb x => some x
  | .wife x => some x
  | .chil x => some x
  | .marr a _ _ => a
  | .other _ a => a

/-- The lines below. -/
def _root_.Libube.GedSpec.FamItem.below : FamItem → List Sub
  | .marr _ c cs => c :: cs
  | _ => []

theorem famItem_text (i : FamItem) : i.text = line 1 i.tag i.arg ++ subText i.below := by
  cases i <;> simp [FamItem.text, FamItem.tag, FamItem.arg, FamItem.below, subText]

theorem word_arg (x : Bytes) (h : Word x) : ValidArg (some x) := by
  rintro t ⟨⟩
  exact h.1

theorem famItem_tag (i : FamItem) (h : i.Valid) : Word i.tag ∧ ValidArg i.arg := by
  cases i with
  | husb a => exact ⟨known_word _ (show ascii "HUSB" ∈ knownTags by decide +kernel), word_arg _ h⟩
  | wife a => exact ⟨known_word _ (show ascii "WIFE" ∈ knownTags by decide +kernel), word_arg _ h⟩
  | chil a => exact ⟨known_word _ (show ascii "CHIL" ∈ knownTags by decide +kernel), word_arg _ h⟩
  | marr a c cs => exact ⟨known_word _ (show ascii "MARR" ∈ knownTags by decide +kernel), h.1⟩
  | other t a => exact ⟨known_word _ h.1, h.2.2⟩

/-- The family after some items. -/
def famOf (xs : List Bytes) (is : List FamItem) : Fam where
  husb := lastPosition xs (is.filterMap fun | .husb x => some x | _ => none)
  wife := lastPosition xs (is.filterMap fun | .wife x => some x | _ => none)
  chil := positions xs (is.filterMap fun | .chil x => some x | _ => none)

theorem castInt_int (b : BitVec 32) : castInt (.int b) = .ok b := by
  simp [castInt, castTo, scalarToInt, Val.type]

theorem push_positions (xs ls : List Bytes) (x : Bytes) :
    push (positions xs ls) (.int (position xs x)) = .ok (positions xs (ls ++ [x])) := by
  match ls with
  | [] => rfl
  | [y] => rfl
  | y :: z :: ls =>
    simp [positions, push, castInt_int]

theorem lastPosition_append (xs ls : List Bytes) (x : Bytes) : lastPosition xs (ls ++ [x]) = .int (position xs x) := by
  simp [lastPosition]

theorem fam_link (fill : UInt8) (d : Nat) (L : Int) (n : Nat) (level : Int) (xs : List Bytes) (i : FamItem)
    (hi : ∃ x, i = .husb x ∨ i = .wife x ∨ i = .chil x) (hv : i.Valid) (done : List FamItem) (r : Bytes)
    (is : List Indi) (fs : List Fam) (m : List (Val × Val)) (l : Int) (s' : St)
    (hf : ∀ x ∈ i.links, ∀ r f, find d ⟨r, f, is, fs, m⟩ x = .ok (.int (position xs x)))
    (hX : ∀ f, readLine fill ⟨r, f, is, fs, m⟩ = .ok (l, s')) :
    fam fill d L (n + 1) level (famOf xs done) ⟨r, i.tag :: pieces i.arg, is, fs, m⟩ =
      if l ≥ L then fam fill d L n l (famOf xs (done ++ [i])) s' else .ok (famOf xs (done ++ [i]), s') := by
  have hc := castInt_int
  obtain ⟨x, rfl | rfl | rfl⟩ := hi
  · have ht : token (FamItem.husb x).tag = some .HUSB := show token (ascii "HUSB") = some .HUSB by decide +kernel
    have hp : pieces (FamItem.husb x).arg = [x] := pieces_word x hv
    have e : famOf xs (done ++ [.husb x]) = { famOf xs done with husb := .int (position xs x) } := by
      simp [famOf, lastPosition_append]
    rw [e, hp]
    simp [fam, shift, ht, link, hf x (by simp [FamItem.links]), hc, hX]
  · have ht : token (FamItem.wife x).tag = some .WIFE := show token (ascii "WIFE") = some .WIFE by decide +kernel
    have hp : pieces (FamItem.wife x).arg = [x] := pieces_word x hv
    have e : famOf xs (done ++ [.wife x]) = { famOf xs done with wife := .int (position xs x) } := by
      simp [famOf, lastPosition_append]
    rw [e, hp]
    simp [fam, shift, ht, link, hf x (by simp [FamItem.links]), hc, hX]
  · have ht : token (FamItem.chil x).tag = some .CHIL := show token (ascii "CHIL") = some .CHIL by decide +kernel
    have hp : pieces (FamItem.chil x).arg = [x] := pieces_word x hv
    have e : push (famOf xs done).chil (.int (position xs x)) = .ok (famOf xs (done ++ [.chil x])).chil := by
      simp [famOf, push_positions]
    have e2 : famOf xs (done ++ [.chil x]) = { famOf xs done with chil := (famOf xs (done ++ [.chil x])).chil } := by
      simp [famOf]
    rw [e2, hp]
    simp [fam, shift, ht, link, hf x (by simp [FamItem.links]), hc, hX, e]

theorem fam_idle (fill : UInt8) (d : Nat) (L : Int) (n : Nat) (level : Int) (t : Bytes) (k : Tok) (ht : token t = some k) (hk : k.famIdle = true) (p : Fam)
    (r : Bytes) (f : List Bytes) (is : List Indi) (fs : List Fam) (m : List (Val × Val)) (l : Int) (s' : St)
    (hX : readLine fill ⟨r, f, is, fs, m⟩ = .ok (l, s')) :
    fam fill d L (n + 1) level p ⟨r, t :: f, is, fs, m⟩ = if l ≥ L then fam fill d L n l p s' else .ok (p, s') := by
  cases k <;> simp_all [fam, shift, Tok.famIdle]

theorem fam_marr (fill : UInt8) (d : Nat) (L : Int) (n : Nat) (level : Int) (t : Bytes) (ht : token t = some .MARR) (p : Fam)
    (r : Bytes) (f : List Bytes) (is : List Indi) (fs : List Fam) (m : List (Val × Val)) (l1 l : Int) (s1 s' : St)
    (h1 : readLine fill ⟨r, f, is, fs, m⟩ = .ok (l1, s1)) (h2 : birth fill l1 n l1 s1 = .ok (l, s')) :
    fam fill d L (n + 1) level p ⟨r, t :: f, is, fs, m⟩ = if l ≥ L then fam fill d L n l p s' else .ok (p, s') := by
  simp [fam, shift, ht, h1, h2]

/-- How many iterations an item takes at most. -/
def _root_.Libube.GedSpec.FamItem.count (i : FamItem) : Nat := 2 + i.below.length

/-- The items that follow, read from the first line on. -/
def FamTail (fill : UInt8) (d : Nat) (xs : List Bytes) (is : List Indi) (fs : List Fam) (m : List (Val × Val)) (items : List FamItem) (X : Bytes) (s1 : St) : Prop :=
  ∃ l s', (∀ f, readLine fill ⟨items.flatMap FamItem.text ++ X, f, is, fs, m⟩ = .ok (l, s')) ∧ l < 2 ∧
    ∀ n done, (items.map FamItem.count).sum < n →
      (if l ≥ 1 then fam fill d 1 n l (famOf xs done) s' else .ok (famOf xs done, s')) = .ok (famOf xs (done ++ items), s1)

theorem fam_item (fill : UInt8) (d : Nat) (xs : List Bytes) (is : List Indi) (fs : List Fam) (m : List (Val × Val)) (items : List FamItem) (X : Bytes) (s1 : St)
    (h : FamTail fill d xs is fs m items X s1) (i : FamItem) (hv : i.Valid)
    (hf : ∀ x ∈ i.links, ∀ r f, find d ⟨r, f, is, fs, m⟩ x = .ok (.int (position xs x))) (n : Nat) (done : List FamItem)
    (hn : ((i :: items).map FamItem.count).sum < n) :
    fam fill d 1 n 1 (famOf xs done) ⟨subText i.below ++ (items.flatMap FamItem.text ++ X), i.tag :: pieces i.arg, is, fs, m⟩ =
      .ok (famOf xs (done ++ i :: items), s1) := by
  obtain ⟨l, s', h1, h2, h3⟩ := h
  obtain ⟨n, rfl⟩ : ∃ k, n = k + 1 := ⟨n - 1, by omega⟩
  have hn' : 2 + i.below.length + (items.map FamItem.count).sum < n + 1 := by simpa [FamItem.count] using hn
  have e0 : done ++ i :: items = (done ++ [i]) ++ items := by simp
  rw [e0]
  have attr : (∃ x, i = .husb x ∨ i = .wife x ∨ i = .chil x) →
      fam fill d 1 (n + 1) 1 (famOf xs done) ⟨subText i.below ++ (items.flatMap FamItem.text ++ X), i.tag :: pieces i.arg, is, fs, m⟩ =
        .ok (famOf xs ((done ++ [i]) ++ items), s1) := by
    intro hi
    have hb : i.below = [] := by obtain ⟨a, rfl | rfl | rfl⟩ := hi <;> rfl
    rw [fam_link fill d 1 n 1 xs i hi hv done _ is fs m l s' hf (by rw [hb]; exact h1)]
    exact h3 n _ (by omega)
  cases i with
  | husb a => exact attr ⟨a, by simp⟩
  | wife a => exact attr ⟨a, by simp⟩
  | chil a => exact attr ⟨a, by simp⟩
  | marr a c cs =>
    have hc := hv.2 c (by simp)
    have hi : famOf xs (done ++ [.marr a c cs]) = famOf xs done := by simp [famOf]
    have h4 := h3 n (done ++ [.marr a c cs]) (by omega)
    rw [hi] at h4
    rw [← h4]
    simp only [FamItem.below, List.length_cons] at hn'
    have e : subText (c :: cs) ++ (items.flatMap FamItem.text ++ X) = line 2 c.tag c.arg ++ (subText cs ++ (items.flatMap FamItem.text ++ X)) := by
      simp [subText]
    exact fam_marr fill d 1 n 1 (ascii "MARR") (by decide +kernel) _ _ _ is fs m 2 l _ s' (by
      show readLine fill ⟨subText (c :: cs) ++ _, _, _, _, _⟩ = _
      rw [e, readLine_line fill 2 (by omega) c.tag c.arg (known_word _ hc.1) hc.2]; rfl)
      (birth_subs fill cs c hv.2 _ l s' is fs m h1 h2 n (by omega))
  | other t a =>
    obtain ⟨hk, h4, h5⟩ := hv
    obtain ⟨k, hk1, hk2⟩ : ∃ k, token t = some k ∧ k.famIdle = true := by simpa [Option.any_eq_true] using famIdle_token t hk h4
    have hi : famOf xs (done ++ [.other t a]) = famOf xs done := by simp [famOf]
    have h4 := h3 n (done ++ [.other t a]) (by omega)
    rw [hi] at h4
    rw [← h4]
    exact fam_idle fill d 1 n 1 t k hk1 hk2 _ _ _ is fs m l s' (h1 _)

theorem famTail_items (fill : UInt8) (d : Nat) (xs : List Bytes) (is : List Indi) (fs : List Fam) (m : List (Val × Val)) (items : List FamItem)
    (hv : ∀ i ∈ items, i.Valid) (hf : ∀ i ∈ items, ∀ x ∈ i.links, ∀ r f, find d ⟨r, f, is, fs, m⟩ x = .ok (.int (position xs x)))
    (X X' : Bytes) (f' : List Bytes) (hX : Opening fill X X' f') : FamTail fill d xs is fs m items X ⟨X', f', is, fs, m⟩ := by
  induction items with
  | nil =>
    refine ⟨0, _, fun f => by simpa using hX f is fs m, by omega, fun n p hn => ?_⟩
    rw [if_neg (by omega), List.append_nil]
  | cons i items ih =>
    have ih := ih (fun j hj => hv j (by simp [hj])) (fun j hj => hf j (by simp [hj]))
    have hi := famItem_tag i (hv i (by simp))
    refine ⟨1, ⟨subText i.below ++ (items.flatMap FamItem.text ++ X), i.tag :: pieces i.arg, is, fs, m⟩, fun f => ?_, by omega, fun n p hn => ?_⟩
    · have e : (i :: items).flatMap FamItem.text ++ X = line 1 i.tag i.arg ++ (subText i.below ++ (items.flatMap FamItem.text ++ X)) := by
        simp [famItem_text]
      rw [e, readLine_line fill 1 (by omega) i.tag i.arg hi.1 hi.2]
      rfl
    · rw [if_pos (by omega)]
      exact fam_item fill d xs is fs m items _ _ ih i (hv i (by simp)) (hf i (by simp)) n p hn

end Libube.Ged

namespace Libube.Ged

open Libube Libube.CString Libube.StringFns Libube.StringSpec Libube.GedSpec

/-! ### Records -/

/-- The individual after some items. -/
def indOf (is : List Item) : Indi where
  name := lastText (is.filterMap fun | .name a => some (argText a) | _ => none)
  titl := lastText (is.filterMap fun | .titl a => some (argText a) | _ => none)
  sex := lastText (is.filterMap fun | .sex a => some (argText a) | _ => none)

theorem foldl_apply (is : List Item) : is.foldl Item.apply {} = indOf is := by
  induction is using List.reverseRecOn with
  | nil => rfl
  | append_singleton is i ih =>
    rw [List.foldl_append, ih]
    cases i <;> simp [Item.apply, indOf, lastText]

theorem indOf_val (is : List Item) : (indOf is).val = person is := rfl

theorem famOf_val (xs : List Bytes) (is : List FamItem) : (famOf xs is).val = household xs is := rfl

/-- What the map of individuals holds. -/
def Holds (m : List (Val × Val)) (xs : List Bytes) : Prop :=
  Order.WF OrderSpec.IsKey Order.code m ∧ ∀ x, (0 : UInt8) ∉ x → x ∈ xs → Order.get Order.code m (Order.code (.chars x)) = some (.int (position xs x))

theorem find_of_holds (d : Nat) (m : List (Val × Val)) (xs : List Bytes) (h : Holds m xs) (x : Bytes) (h0 : (0 : UInt8) ∉ x) (hx : x ∈ xs)
    (r : Bytes) (f : List Bytes) (is : List Indi) (fs : List Fam) :
    find (d + 2) ⟨r, f, is, fs, m⟩ x = .ok (.int (position xs x)) := by
  have hg := h.2 x h0 hx
  have hm : m ≠ [] := by
    rintro rfl
    simp [Order.get] at hg
  simp only [find, if_neg hm]
  rw [Order.mapAt_spec (Order.isKey_class d) m (.chars x) h0 h.1, hg]

theorem holds_append (d : Nat) (m : List (Val × Val)) (xs : List Bytes) (h : Holds m xs) (x : Bytes) (h0 : (0 : UInt8) ∉ x) (hx : x ∉ xs) :
    ∃ m', mapSet (d + 2) m (.chars x) (.int (BitVec.ofNat 32 xs.length)) = .ok m' ∧ Holds m' (xs ++ [x]) := by
  obtain ⟨m', h1, h2, h3, -⟩ := Order.mapSet_spec (Order.isKey_class d) m (.chars x) (.int (BitVec.ofNat 32 xs.length)) h0 h.1
  refine ⟨m', h1, h2, fun y hy0 hy => ?_⟩
  rw [h3]
  by_cases hxy : y = x
  · subst hxy
    simp [position, List.idxOf_append, hx]
  · have hy' : y ∈ xs := by simpa [hxy] using hy
    rw [if_neg (by rw [Ini.code_chars]; exact hxy), h.2 y hy0 hy', position, position, List.idxOf_append_of_mem hy']

theorem raw_length (l : Nat) (t : Bytes) : (raw l t).length = t.length + 3 := by simp [raw]

theorem subText_length (cs : List Sub) : cs.length ≤ (subText cs).length := by
  induction cs with
  | nil => simp
  | cons c cs ih =>
    have e : subText (c :: cs) = line 2 c.tag c.arg ++ subText cs := by simp [subText]
    rw [e, List.length_append, line, raw_length, List.length_cons]
    omega

theorem count_length (is : List Item) : (is.map Item.count).sum ≤ (is.flatMap Item.text).length := by
  induction is with
  | nil => simp
  | cons i is ih =>
    rw [List.flatMap_cons, List.length_append, item_text, List.length_append, line, raw_length, List.map_cons, List.sum_cons, Item.count]
    have := subText_length i.below
    omega

theorem famCount_length (is : List FamItem) : (is.map FamItem.count).sum ≤ (is.flatMap FamItem.text).length := by
  induction is with
  | nil => simp
  | cons i is ih =>
    rw [List.flatMap_cons, List.length_append, famItem_text, List.length_append, line, raw_length, List.map_cons, List.sum_cons, FamItem.count]
    have := subText_length i.below
    omega

theorem rawText_length (ls : List (Nat × Bytes)) : ls.length ≤ (rawText ls).length := by
  induction ls with
  | nil => simp
  | cons c cs ih =>
    have e : rawText (c :: cs) = raw c.1 c.2 ++ rawText cs := by simp [rawText]
    rw [e, List.length_append, raw_length, List.length_cons]
    omega

theorem record_indi (fill : UInt8) (d n : Nat) (x : Bytes) (i : Item) (items : List Item) (hv : ∀ j ∈ i :: items, j.Valid) (h0 : (0 : UInt8) ∉ x)
    (is : List Indi) (fs : List Fam) (m : List (Val × Val)) (xs : List Bytes) (hm : Holds m xs) (hl : is.length = xs.length) (hx : x ∉ xs)
    (hn : ((i :: items).flatMap Item.text).length < n) (X X' : Bytes) (f' : List Bytes) (hX : Opening fill X X' f') :
    ∃ m', record fill (d + 2) n ⟨(i :: items).flatMap Item.text ++ X, [x, ascii "INDI"], is, fs, m⟩ =
      .ok (some ⟨X', f', is ++ [indOf (i :: items)], fs, m'⟩) ∧ Holds m' (xs ++ [x]) := by
  obtain ⟨m', h1, h2⟩ := holds_append d m xs hm x h0 hx
  refine ⟨m', ?_, h2⟩
  have hk : token (ascii "INDI") = some .INDI := by decide +kernel
  obtain ⟨hi1, hi2⟩ := item_tag i (hv i (by simp))
  have e : (i :: items).flatMap Item.text ++ X = line 1 i.tag i.arg ++ (subText i.below ++ (items.flatMap Item.text ++ X)) := by
    simp [item_text]
  have hc := count_length (i :: items)
  have hI := indi_item fill is fs m' items _ _ (tail_items fill is fs m' items (fun j hj => hv j (by simp [hj])) X X' f' hX) i (hv i (by simp)) n {} (by omega)
  have hR := readLine_line fill 1 (by omega) i.tag i.arg hi1 hi2 (subText i.below ++ (items.flatMap Item.text ++ X)) [] is fs m'
  rw [e]
  simp only [record, shift, hk, Outcome.bind_ok, hl, h1, hR, Nat.cast_one, hI, foldl_apply]

theorem record_tail (fill : UInt8) (d n : Nat) (x : Bytes) (items : List Item) (hi : ∃ i, items.head? = some i ∧ i.Valid) (h0 : (0 : UInt8) ∉ x)
    (is : List Indi) (fs : List Fam) (m : List (Val × Val)) (hm : Order.WF OrderSpec.IsKey Order.code m) (X X' : Bytes) (f' : List Bytes)
    (hT : ∀ m', Tail fill is fs m' items X ⟨X', f', is, fs, m'⟩) (hn : (items.flatMap Item.text).length < n) :
    ∃ m', Order.WF OrderSpec.IsKey Order.code m' ∧ record fill (d + 2) n ⟨items.flatMap Item.text ++ X, [x, ascii "INDI"], is, fs, m⟩ =
      .ok (some ⟨X', f', is ++ [indOf items], fs, m'⟩) := by
  obtain ⟨m', h1, hm', -⟩ := Order.mapSet_spec (Order.isKey_class d) m (.chars x) (.int (BitVec.ofNat 32 is.length)) h0 hm
  refine ⟨m', hm', ?_⟩
  obtain ⟨i, hi, hv⟩ := hi
  obtain ⟨l, s', e1, -, e2⟩ := hT m'
  have hk : token (ascii "INDI") = some .INDI := by decide +kernel
  have hl : l = 1 := by
    cases items with
    | nil => cases hi
    | cons j items =>
      cases hi
      have hi := item_tag i hv
      have e : (i :: items).flatMap Item.text ++ X = line 1 i.tag i.arg ++ (subText i.below ++ (items.flatMap Item.text ++ X)) := by
        simp [item_text]
      have := e1 []
      rw [e, readLine_line fill 1 (by omega) i.tag i.arg hi.1 hi.2] at this
      simp only [Outcome.ok.injEq, Prod.mk.injEq] at this
      omega
  subst hl
  have e3 := e2 n {} (by have := count_length items; omega)
  rw [if_pos (by omega)] at e3
  simp only [record, shift, hk, Outcome.bind_ok, h1, e1, e3, foldl_apply]

theorem record_fam (fill : UInt8) (d n : Nat) (x : Bytes) (xs : List Bytes) (i : FamItem) (items : List FamItem) (hv : ∀ j ∈ i :: items, j.Valid)
    (is : List Indi) (fs : List Fam) (m : List (Val × Val))
    (hf : ∀ j ∈ i :: items, ∀ x ∈ j.links, ∀ r f, find d ⟨r, f, is, fs, m⟩ x = .ok (.int (position xs x)))
    (hn : ((i :: items).flatMap FamItem.text).length < n) (X X' : Bytes) (f' : List Bytes) (hX : Opening fill X X' f') :
    record fill d n ⟨(i :: items).flatMap FamItem.text ++ X, [x, ascii "FAM"], is, fs, m⟩ =
      .ok (some ⟨X', f', is, fs ++ [famOf xs (i :: items)], m⟩) := by
  have hk : token (ascii "FAM") = some .FAM := by decide +kernel
  obtain ⟨hi1, hi2⟩ := famItem_tag i (hv i (by simp))
  have e : (i :: items).flatMap FamItem.text ++ X = line 1 i.tag i.arg ++ (subText i.below ++ (items.flatMap FamItem.text ++ X)) := by
    simp [famItem_text]
  have hc := famCount_length (i :: items)
  have hI := fam_item fill d xs is fs m items _ _ (famTail_items fill d xs is fs m items (fun j hj => hv j (by simp [hj]))
    (fun j hj => hf j (by simp [hj])) X X' f' hX) i (hv i (by simp)) (hf i (by simp)) n [] (by omega)
  have hR := readLine_line fill 1 (by omega) i.tag i.arg hi1 hi2 (subText i.below ++ (items.flatMap FamItem.text ++ X)) [] is fs m
  have h0 : famOf xs [] = {} := rfl
  rw [h0] at hI
  rw [e]
  simp only [record, shift, hk, Outcome.bind_ok, hR, Nat.cast_one, hI, List.nil_append]

theorem record_subm (fill : UInt8) (d n : Nat) (x first : Bytes) (ls : List (Nat × Bytes)) (h1 : Text first) (hv : ValidLines ls)
    (is : List Indi) (fs : List Fam) (m : List (Val × Val)) (hn : (rawText ls).length < n) (X X' : Bytes) (f' : List Bytes) (hX : Opening fill X X' f') :
    record fill d n ⟨raw 1 first ++ rawText ls ++ X, [x, ascii "SUBM"], is, fs, m⟩ = .ok (some ⟨X', f', is, fs, m⟩) := by
  have hk : token (ascii "SUBM") = some .SUBM := by decide +kernel
  have hR := readLine_raw fill 1 (by omega) first (rawText ls ++ X) h1 [] is fs m
  have hc := rawText_length ls
  have hS := skip_lines fill 1 ls hv X 0 _ is fs m (fun f => hX f is fs m) (by omega) n (by omega) (fieldsOf first)
  simp only [Nat.cast_one] at hR hS
  simp only [record, shift, hk, Outcome.bind_ok, List.append_assoc, hR, hS]

/-! ### Documents -/

/-- The fields of the next line, `f'` if there is no record. -/
def nextFields (f' : List Bytes) : List Record → List Bytes
  | [] => f'
  | r :: _ => fieldsOf r.title

/-- What follows the next line; `X` follows the records, with `X'` after its first line. -/
def afterTitle (X X' : Bytes) : List Record → Bytes
  | [] => X'
  | r :: rs => r.body ++ (rs.flatMap Record.text ++ X)

theorem text_word (x t : Bytes) (hx : Text x) (ht : Text t) : Text (x ++ t) := by
  refine ⟨?_, ?_⟩ <;> simp [hx.1, hx.2, ht.1, ht.2]

theorem title_text (r : Record) (h : r.Valid) : Text r.title := by
  cases r with
  | indi x i is => exact text_word _ _ h.1.1.1 ⟨by decide +kernel, by decide +kernel⟩
  | fam x i is => exact text_word _ _ h.1.1.1 ⟨by decide +kernel, by decide +kernel⟩
  | subm x i is => exact text_word _ _ h.1.1.1 ⟨by decide +kernel, by decide +kernel⟩

theorem opening_records (fill : UInt8) (rs : List Record) (hv : ∀ r ∈ rs, r.Valid) (X X' : Bytes) (f' : List Bytes) (hX : Opening fill X X' f') :
    Opening fill (rs.flatMap Record.text ++ X) (afterTitle X X' rs) (nextFields f' rs) := by
  cases rs with
  | nil => exact hX
  | cons r rs =>
    have e : (r :: rs).flatMap Record.text ++ X = raw 0 r.title ++ (r.body ++ (rs.flatMap Record.text ++ X)) := by simp [Record.text]
    rw [e]
    exact opening_raw fill _ _ (title_text r (hv r (by simp)))

/-- The reader stops after at most `N` steps and some more individuals. -/
def Stops (fill : UInt8) (d N : Nat) (X' : Bytes) (f' : List Bytes) (I : List Indi) : Prop :=
  ∀ n is fs m, N < n → Order.WF OrderSpec.IsKey Order.code m →
    ∃ s', file fill d 0 n 0 ⟨X', f', is, fs, m⟩ = .ok s' ∧ s'.inds = is ++ I ∧ s'.fams = fs

/-- The individuals of some records. -/
def indsOf (rs : List Record) : List Indi := rs.filterMap fun
  | .indi _ i is => some (indOf (i :: is))
  | _ => none

/-- The families of some records. -/
def famsOf (xs : List Bytes) (rs : List Record) : List Fam := rs.filterMap fun
  | .fam _ i is => some (famOf xs (i :: is))
  | _ => none

theorem file_record (fill : UInt8) (d n : Nat) (x tag : Bytes) (hx : Xref x) (r : Bytes) (is : List Indi) (fs : List Fam) (m : List (Val × Val)) (s' : St)
    (h : record fill d n ⟨r, [x, tag], is, fs, m⟩ = .ok (some s')) :
    file fill d 0 (n + 1) 0 ⟨r, [x, tag], is, fs, m⟩ = file fill d 0 n 0 s' := by
  obtain ⟨c, cs, rfl⟩ := List.exists_cons_of_ne_nil hx.1.2.2
  obtain rfl : c = 64 := by simpa using hx.2
  simp [file, h]

theorem title_fields (x : Bytes) (tag : String) (hx : Xref x) (ht : Word (ascii tag)) : fieldsOf (x ++ 32 :: ascii tag) = [x, ascii tag] := by
  rw [fieldsOf_cons _ _ hx.1.2.1 hx.1.1.2 ht.1.2, fieldsOf_word _ ht.2.1 ht.1.2]

theorem xrefs_append (as bs : List Record) : xrefs (as ++ bs) = xrefs as ++ xrefs bs := by simp [xrefs]

theorem position_append (xs ys : List Bytes) (x : Bytes) (h : x ∈ xs) : position (xs ++ ys) x = position xs x := by
  rw [position, position, List.idxOf_append_of_mem h]

theorem links_word (r : Record) (h : r.Valid) : ∀ x ∈ r.links, (0 : UInt8) ∉ x := by
  intro x hx
  cases r with
  | indi _ _ _ => simp [Record.links] at hx
  | subm _ _ _ => simp [Record.links] at hx
  | fam y i is =>
    obtain ⟨j, hj, hx⟩ := List.mem_flatMap.1 hx
    have := h.2 j hj
    cases j <;> simp [FamItem.links] at hx <;> (subst hx; exact this.1.2)

theorem file_records (fill : UInt8) (d : Nat) (X X' : Bytes) (f' : List Bytes) (hX : Opening fill X X' f') (N : Nat) (rs as : List Record) (hv : ∀ r ∈ rs, r.Valid) (hd : (xrefs (as ++ rs)).Nodup)
    (hb : LinkedBack (as ++ rs)) (is : List Indi) (fs : List Fam) (m : List (Val × Val)) (hm : Holds m (xrefs as)) (hl : is.length = (xrefs as).length)
    (n : Nat) (hn : (rs.flatMap Record.text).length + N < n) :
    ∃ k m', N < k ∧ Order.WF OrderSpec.IsKey Order.code m' ∧ file fill (d + 2) 0 n 0 ⟨afterTitle X X' rs, nextFields f' rs, is, fs, m⟩ =
      file fill (d + 2) 0 k 0 ⟨X', f', is ++ indsOf rs, fs ++ famsOf (xrefs (as ++ rs)) rs, m'⟩ := by
  induction rs generalizing as is fs m n with
  | nil =>
    exact ⟨n, m, by omega, hm.1, by simp [indsOf, famsOf, afterTitle, nextFields]⟩
  | cons r rs ih =>
    obtain ⟨n, rfl⟩ : ∃ k, n = k + 1 := ⟨n - 1, by omega⟩
    have hr := hv r (by simp)
    have hT := opening_records fill rs (fun r hr => hv r (by simp [hr])) X X' f' hX
    have hcl : (r.body).length + (rs.flatMap Record.text).length + N < n := by
      rw [List.flatMap_cons, List.length_append, Record.text, List.length_append, raw_length] at hn
      omega
    have ea : as ++ r :: rs = (as ++ [r]) ++ rs := by simp
    have ih := ih (as ++ [r]) (fun r hr => hv r (by simp [hr])) (by rw [← ea]; exact hd) (by rw [← ea]; exact hb)
    rw [← ea] at ih
    simp only [afterTitle, nextFields]
    cases r with
    | indi x i items =>
      have hxr : xrefs (as ++ [.indi x i items]) = xrefs as ++ [x] := by simp [xrefs]
      have hx : x ∉ xrefs as := by
        have := hd
        rw [ea, xrefs_append, hxr] at this
        have := (List.nodup_append.1 (List.nodup_append.1 this).1).2.2
        intro hm
        exact this x hm x (by simp) rfl
      obtain ⟨m', h1, h2⟩ := record_indi fill d n x i items hr.2 hr.1.1.1.2 is fs m (xrefs as) hm hl hx (by simp only [Record.body] at hcl; omega)
        _ _ _ hT
      have ef : fieldsOf (Record.title (.indi x i items)) = [x, ascii "INDI"] :=
        title_fields x "INDI" hr.1 (known_word _ (by decide +kernel))
      rw [ef]
      simp only [Record.body]
      rw [file_record fill (d + 2) n x _ hr.1 _ _ _ _ _ h1]
      obtain ⟨k, m2, h3, h4, h5⟩ := ih (is ++ [indOf (i :: items)]) fs m' (by rw [hxr]; exact h2) (by rw [hxr]; simp [hl]) n (by omega)
      exact ⟨k, m2, h3, h4, by rw [h5]; simp [indsOf, famsOf]⟩
    | fam x i items =>
      have hxr : xrefs (as ++ [.fam x i items]) = xrefs as := by simp [xrefs]
      have hlk := hb as _ rs rfl
      have hfind : ∀ j ∈ i :: items, ∀ y ∈ j.links, ∀ r f, find (d + 2) ⟨r, f, is, fs, m⟩ y = .ok (.int (position (xrefs (as ++ .fam x i items :: rs)) y)) := by
        intro j hj y hy r f
        have hy' : y ∈ Record.links (.fam x i items) := List.mem_flatMap.2 ⟨j, hj, hy⟩
        rw [xrefs_append, position_append _ _ _ (hlk y hy')]
        exact find_of_holds d m _ hm y (links_word _ hr y hy') (hlk y hy') _ _ _ _
      have h1 := record_fam fill (d + 2) n x _ i items hr.2 is fs m hfind (by simp only [Record.body] at hcl; omega) _ _ _ hT
      have ef : fieldsOf (Record.title (.fam x i items)) = [x, ascii "FAM"] :=
        title_fields x "FAM" hr.1 (known_word _ (by decide +kernel))
      rw [ef]
      simp only [Record.body]
      rw [file_record fill (d + 2) n x _ hr.1 _ _ _ _ _ h1]
      obtain ⟨k, m2, h3, h4, h5⟩ := ih is _ m (by rw [hxr]; exact hm) (by rw [hxr]; exact hl) n (by omega)
      exact ⟨k, m2, h3, h4, by rw [h5]; simp [indsOf, famsOf]⟩
    | subm x first ls =>
      have hxr : xrefs (as ++ [.subm x first ls]) = xrefs as := by simp [xrefs]
      have h1 := record_subm fill (d + 2) n x first ls hr.2.1 hr.2.2 is fs m (by simp only [Record.body, List.length_append] at hcl; omega) _ _ _ hT
      have ef : fieldsOf (Record.title (.subm x first ls)) = [x, ascii "SUBM"] :=
        title_fields x "SUBM" hr.1 (known_word _ (by decide +kernel))
      rw [ef]
      simp only [Record.body]
      rw [file_record fill (d + 2) n x _ hr.1 _ _ _ _ _ h1]
      obtain ⟨k, m2, h3, h4, h5⟩ := ih is fs m (by rw [hxr]; exact hm) (by rw [hxr]; exact hl) n (by omega)
      exact ⟨k, m2, h3, h4, by rw [h5]; simp [indsOf, famsOf]⟩

theorem indsOf_val (rs : List Record) : (indsOf rs).map Indi.val = people rs := by
  unfold indsOf people
  rw [List.map_filterMap]
  refine congrArg (fun f => List.filterMap f rs) (funext fun r => ?_)
  cases r <;> rfl

theorem famsOf_val (rs : List Record) : (famsOf (xrefs rs) rs).map Fam.val = families rs := by
  unfold famsOf families
  rw [List.map_filterMap]
  refine congrArg (fun f => List.filterMap f rs) (funext fun r => ?_)
  cases r <;> rfl

theorem val_contents (s : St) : s.val = contents (s.fams.map Fam.val) (s.inds.map Indi.val) := by
  have e1 : familyKey = .chars (ascii "Family") := by rw [familyKey]; congr 1
  have e2 : individualKey = .chars (ascii "Individual") := by rw [individualKey]; congr 1
  obtain ⟨r, f, is, fs, m⟩ := s
  cases is <;> cases fs <;> simp [St.val, contents, entry, e1, e2]

/-- The beginning of a document: header, and first line after it. -/
theorem load_header (fill : UInt8) (d : Nat) (c : Doc) (h1 : Text c.first) (h2 : ValidLines c.header) (X X' : Bytes) (f' : List Bytes)
    (hX : Opening fill X X' f') (n : Nat) (hn : c.header.length < n) :
    load fill d (n + 1) (raw 0 (ascii "HEAD") ++ (raw 1 c.first ++ (rawText c.header ++ X))) .init = file fill d 0 n 0 ⟨X', f', [], [], []⟩ := by
  have hH := known_word _ (show ascii "HEAD" ∈ knownTags by decide +kernel)
  have hR0 := readLine_raw fill 0 (by omega) (ascii "HEAD") (raw 1 c.first ++ (rawText c.header ++ X)) hH.1 [] [] [] []
  have hR1 := readLine_raw fill 1 (by omega) c.first (rawText c.header ++ X) h1 [] [] [] []
  have hS := skip_lines fill 1 c.header h2 X 0 _ [] [] [] (fun f => hX f [] [] []) (by omega) n hn (fieldsOf c.first)
  have hk : token (ascii "HEAD") = some .HEAD := by decide +kernel
  have e2 : ascii "HEAD" = 72 :: [69, 65, 68] := by decide +kernel
  rw [fieldsOf_word _ hH.2.1 hH.1.2] at hR0
  rw [e2] at hR0 hk
  simp only [Nat.cast_one, Nat.cast_zero] at hR0 hR1 hS
  rw [load, e2]
  simp only [St.init, hR0, Outcome.bind_ok, file, shift, hk, hR1, hS]
  simp

/-- Loading a document, with something else in place of the trailer. -/
theorem load_doc (fill : UInt8) (d : Nat) (X X' : Bytes) (f' : List Bytes) (hX : Opening fill X X' f') (N : Nat)
    (c : Doc) (hv : c.Valid) (hb : LinkedBack c.records) (n : Nat) (hn : c.front.length + N < n) :
    ∃ k m', N < k ∧ Order.WF OrderSpec.IsKey Order.code m' ∧ load fill (d + 2) n (c.front ++ X) .init =
      file fill (d + 2) 0 k 0 ⟨X', f', indsOf c.records, famsOf (xrefs c.records) c.records, m'⟩ := by
  obtain ⟨h1, h2, h3, h4⟩ := hv
  have e : c.front ++ X = raw 0 (ascii "HEAD") ++ (raw 1 c.first ++ (rawText c.header ++ (c.records.flatMap Record.text ++ X))) := by
    simp [Doc.front]
  have hc := rawText_length c.header
  have hlen : c.front.length = 4 + 3 + (c.first.length + 3) + (rawText c.header).length + (c.records.flatMap Record.text).length := by
    have e4 : (ascii "HEAD").length = 4 := by decide +kernel
    simp only [Doc.front, List.length_append, raw_length, e4]
    omega
  obtain ⟨n, rfl⟩ : ∃ k, n = k + 1 := ⟨n - 1, by omega⟩
  rw [e, load_header fill (d + 2) c h1 h2 _ _ _ (opening_records fill c.records h3 X X' f' hX) n (by omega)]
  obtain ⟨k, m', h5, h6, h7⟩ := file_records fill d X X' f' hX N c.records [] h3 h4 hb [] [] [] ⟨Order.WF.nil, by simp [xrefs]⟩ rfl n (by omega)
  exact ⟨k, m', h5, h6, h7⟩

/-- Reading a document, with something else in place of the trailer. -/
theorem read_doc (fill : UInt8) (d : Nat) (X X' : Bytes) (f' : List Bytes) (hX : Opening fill X X' f') (N : Nat) (I : List Indi)
    (hStop : Stops fill (d + 2) N X' f' I) (c : Doc) (hv : c.Valid) (hb : LinkedBack c.records) (n : Nat) (hn : c.front.length + N < n) :
    read fill (d + 2) n (c.front ++ X) = .ok (contents (families c.records) (people c.records ++ I.map Indi.val)) := by
  obtain ⟨k, m', h1, h2, h3⟩ := load_doc fill d X X' f' hX N c hv hb n hn
  obtain ⟨s', h4, h5, h6⟩ := hStop k _ _ m' h1 h2
  rw [read, h3, h4, Outcome.bind_ok, val_contents, h5, h6, List.map_append, indsOf_val, famsOf_val]

theorem stops_trailer (fill : UInt8) (d : Nat) (X' t : Bytes) (f : List Bytes) (ht : token (84 :: t) = some .TRLR ∨ token (84 :: t) = none) :
    Stops fill d 0 X' ((84 :: t) :: f) [] := by
  intro n is fs m hn _
  obtain ⟨n, rfl⟩ : ∃ k, n = k + 1 := ⟨n - 1, by omega⟩
  refine ⟨⟨X', f, is, fs, m⟩, ?_, (List.append_nil _).symm, rfl⟩
  rcases ht with ht | ht <;> simp [file, shift, ht]

theorem stops_unknown (fill : UInt8) (d : Nat) (X' x t : Bytes) (f : List Bytes) (ht : token t = none) :
    Stops fill d 0 X' ((64 :: x) :: t :: f) [] := by
  intro n is fs m hn _
  obtain ⟨n, rfl⟩ : ∃ k, n = k + 1 := ⟨n - 1, by omega⟩
  refine ⟨⟨X', (64 :: x) :: t :: f, is, fs, m⟩, ?_, (List.append_nil _).symm, rfl⟩
  simp [file, record, shift, ht]

/-- An individual in which a line with an unknown tag comes after the name. -/
theorem file_individual (fill : UInt8) (d : Nat) (x : Bytes) (hx : Xref x) (items : List Item) (hv : ∀ i ∈ items, i.Valid) (a : Arg) (ha : ValidArg a)
    (X X' t : Bytes) (f' : List Bytes) (ht : token t = none) (l : Int) (hl : 1 ≤ l)
    (hX : ∀ f is fs m, readLine fill ⟨X, f, is, fs, m⟩ = .ok (l, ⟨X', t :: f', is, fs, m⟩)) (n : Nat) (is : List Indi) (fs : List Fam)
    (m : List (Val × Val)) (hm : Order.WF OrderSpec.IsKey Order.code m) (hn : ((items ++ [Item.name a]).flatMap Item.text).length < n) :
    ∃ m', Order.WF OrderSpec.IsKey Order.code m' ∧
      file fill (d + 2) 0 (n + 1) 0 ⟨(items ++ [Item.name a]).flatMap Item.text ++ X, [x, ascii "INDI"], is, fs, m⟩ =
      file fill (d + 2) 0 n 0 ⟨X', f', is ++ [indOf (items ++ [Item.name a])], fs, m'⟩ := by
  have hi : ∃ i, (items ++ [Item.name a]).head? = some i ∧ i.Valid := by
    cases items with
    | nil => exact ⟨_, rfl, ha⟩
    | cons i items => exact ⟨i, rfl, hv i (by simp)⟩
  obtain ⟨m', hm', h1⟩ := record_tail fill d n x _ hi hx.1.1.2 is fs m hm X X' f'
    (fun m' => tail_unknown fill is fs m' items hv a ha X X' t f' ht l hl fun f => hX f is fs m') (by omega)
  exact ⟨m', hm', file_record fill (d + 2) n x _ hx _ _ _ _ _ h1⟩

theorem stops_individual (fill : UInt8) (d : Nat) (x : Bytes) (hx : Xref x) (items : List Item) (hv : ∀ i ∈ items, i.Valid) (a : Arg) (ha : ValidArg a)
    (X X' t : Bytes) (f' : List Bytes) (ht : token t = none) (l : Int) (hl : 1 ≤ l)
    (hX : ∀ f is fs m, readLine fill ⟨X, f, is, fs, m⟩ = .ok (l, ⟨X', t :: f', is, fs, m⟩)) (hS : Stops fill (d + 2) 0 X' f' []) :
    Stops fill (d + 2) (((items ++ [Item.name a]).flatMap Item.text).length + 1) ((items ++ [Item.name a]).flatMap Item.text ++ X) [x, ascii "INDI"]
      [indOf (items ++ [Item.name a])] := by
  intro n is fs m hn hm
  obtain ⟨n, rfl⟩ : ∃ k, n = k + 1 := ⟨n - 1, by omega⟩
  obtain ⟨m', hm', h1⟩ := file_individual fill d x hx items hv a ha X X' t f' ht l hl hX n is fs m hm (by omega)
  rw [h1]
  obtain ⟨s', h2, h3, h4⟩ := hS n (is ++ [indOf (items ++ [Item.name a])]) fs m' (by omega) hm'
  exact ⟨s', h2, by rw [h3]; simp, h4⟩

theorem stops_word (fill : UInt8) (d : Nat) (X' w : Bytes) (f : List Bytes) (hw : w.head? ≠ some 64) (ht : token w = none) :
    Stops fill d 0 X' (w :: f) [] := by
  intro n is fs m hn _
  obtain ⟨n, rfl⟩ : ∃ k, n = k + 1 := ⟨n - 1, by omega⟩
  cases w with
  | nil => exact ⟨⟨X', [] :: f, is, fs, m⟩, by simp [file], (List.append_nil _).symm, rfl⟩
  | cons c w =>
    have hc : c ≠ 64 := by simpa using hw
    exact ⟨⟨X', f, is, fs, m⟩, by simp [file, hc, shift, ht], (List.append_nil _).symm, rfl⟩

theorem stops_nil (fill : UInt8) (d : Nat) (X' : Bytes) : Stops fill d 0 X' [] [] := by
  intro n is fs m hn _
  obtain ⟨n, rfl⟩ : ∃ k, n = k + 1 := ⟨n - 1, by omega⟩
  exact ⟨⟨X', [], is, fs, m⟩, by simp [file], (List.append_nil _).symm, rfl⟩

theorem link_throws (fill : UInt8) (d : Nat) (L : Int) (n : Nat) (level : Int) (i : FamItem) (hi : i.links ≠ []) (hv : i.Valid) (p : Fam) (r : Bytes)
    (is : List Indi) (fs : List Fam) :
    fam fill d L (n + 1) level p ⟨r, i.tag :: pieces i.arg, is, fs, []⟩ = .thrown (.error "var::at(): uninitialised") := by
  cases i with
  | husb x =>
    have ht : token (FamItem.husb x).tag = some .HUSB := show token (ascii "HUSB") = some .HUSB by decide +kernel
    have hp : pieces (FamItem.husb x).arg = [x] := pieces_word x hv
    simp [fam, shift, ht, link, hp, find]
  | wife x =>
    have ht : token (FamItem.wife x).tag = some .WIFE := show token (ascii "WIFE") = some .WIFE by decide +kernel
    have hp : pieces (FamItem.wife x).arg = [x] := pieces_word x hv
    simp [fam, shift, ht, link, hp, find]
  | chil x =>
    have ht : token (FamItem.chil x).tag = some .CHIL := show token (ascii "CHIL") = some .CHIL by decide +kernel
    have hp : pieces (FamItem.chil x).arg = [x] := pieces_word x hv
    simp [fam, shift, ht, link, hp, find]
  | marr a b cs => exact absurd rfl hi
  | other t a => exact absurd rfl hi

theorem load_first (fill : UInt8) (d : Nat) (c : Doc) (x : Bytes) (i : FamItem) (items : List FamItem) (rs : List Record)
    (hv : c.Valid) (hr : c.records = .fam x i items :: rs) (hi : i.links ≠ []) (X : Bytes) (n : Nat) (hn : c.front.length < n) :
    load fill d n (c.front ++ X) .init = .thrown (.error "var::at(): uninitialised") := by
  obtain ⟨h1, h2, h3, -⟩ := hv
  have hf := h3 (.fam x i items) (by rw [hr]; simp)
  have hi' := famItem_tag i (hf.2 i (by simp))
  have hk : token (ascii "FAM") = some .FAM := by decide +kernel
  have e : c.front ++ X = raw 0 (ascii "HEAD") ++ (raw 1 c.first ++ (rawText c.header ++ (raw 0 (Record.title (.fam x i items)) ++
      (line 1 i.tag i.arg ++ (subText i.below ++ (items.flatMap FamItem.text ++ (rs.flatMap Record.text ++ X))))))) := by
    simp [Doc.front, hr, Record.text, Record.body, famItem_text]
  have hlen : c.header.length + 2 < n := by
    have := rawText_length c.header
    simp only [Doc.front, List.length_append, raw_length] at hn
    omega
  obtain ⟨n, rfl⟩ : ∃ k, n = k + 3 := ⟨n - 3, by omega⟩
  have ef : fieldsOf (Record.title (.fam x i items)) = [x, ascii "FAM"] := title_fields x "FAM" hf.1 (known_word _ (by decide +kernel))
  rw [e, load_header fill d c h1 h2 _ _ _ (opening_raw fill _ _ (title_text _ hf)) (n + 2) (by omega), ef]
  obtain ⟨a, y, rfl⟩ := List.exists_cons_of_ne_nil hf.1.1.2.2
  obtain rfl : a = 64 := by simpa using hf.1.2
  have hR := readLine_line fill 1 (by omega) i.tag i.arg hi'.1 hi'.2 (subText i.below ++ (items.flatMap FamItem.text ++ (rs.flatMap Record.text ++ X))) [] [] [] []
  simp only [file, record, shift, hk, Outcome.bind_ok, hR, Nat.cast_one, link_throws fill d 1 n 1 i hi (hf.2 i (by simp))]
  simp

theorem token_none : ∀ p ∈ tokenTable, p.1 ∈ knownTags := by decide +kernel

theorem unknown_token (t : Bytes) (h : t ∉ knownTags) : token t = none := by
  rw [token, Option.map_eq_none_iff, List.find?_eq_none]
  intro p hp
  have := token_none p hp
  simp only [beq_iff_eq]
  rintro rfl
  exact h this

end Libube.Ged

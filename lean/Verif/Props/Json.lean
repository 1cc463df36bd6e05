import Verif.Lemmas.JsonList
import Verif.Props.Maps

/-! # C20-C24: JSON

In all statements `n` is the depth granted to key comparisons (2 suffices) and `fuel` the depth of
calls and iterations, for which twice the length of the text plus one suffices. -/

namespace Libube.Json

open Libube Libube.CString Libube.JsonSpec
open Libube.OrderSpec (IsKey KeyLt SameKey)
open Libube.MapSpec (LastSet NeverSet DistinctKeys)
open Libube.Order (WF code isKey_class)

/-! ## C20 -/

/-- C20 for the values of `Good`: the text written parses back, completely, to the same data.
    Missing for the full claim: dense arrays (`array_text_rejected`), strings with quotation marks,
    backslashes or NUL (`quote_lost`, `string_round_trip_iff`), arrays of one integer
    (`singleton_unwrapped`), arrays that begin with an integer but hold something else as well
    (`mixed_array_lost`) and empty arrays of vars (`empty_array_lost`), for which it is false. -/
theorem json_round_trip_partial (v : Val) (hv : Good v) (n : Nat) (hn : 2 ≤ n) (fuel : Nat)
    (hf : 2 * (format 0 v).length + 1 ≤ fuel) :
    ∃ w, parse n fuel (format 0 v) = .ok (w, []) ∧ JsonSpec.Same v w := by
  obtain ⟨n, rfl⟩ : ∃ m, n = m + 2 := ⟨n - 2, by omega⟩
  obtain ⟨w, h1, h2, -⟩ := good_trips hv
  obtain ⟨s', h3, h4⟩ := h2 n 0 [] (Or.inl rfl)
  rw [List.append_nil] at h3
  refine ⟨w, ?_, h1⟩
  rw [parse_of_runs h3 fuel hf]
  rw [show s'.rest = [] from h4]

-- {"a": [null, "b", 3], "b": [-1, 2]}
example : Good (.map [(.chars [97], .arr [.nil, .chars [98], .int 3]), (.chars [98], .arr [.int (-1), .long 2])]) := by
  refine .map _ ?_ ?_ ?_
  · intro p hp
    simp only [List.mem_cons, List.not_mem_nil, or_false] at hp
    rcases hp with rfl | rfl
    · exact ⟨_, rfl, by decide⟩
    · exact ⟨_, rfl, by decide⟩
  · simp only [List.pairwise_cons, List.mem_cons, List.not_mem_nil, or_false, forall_eq, List.Pairwise.nil, and_true,
      false_imp_iff, implies_true]
    exact .rel (by decide)
  · intro p hp
    simp only [List.mem_cons, List.not_mem_nil, or_false] at hp
    rcases hp with rfl | rfl
    · refine .arr _ _ (by simp [IsInteger]) ?_
      intro y hy
      simp only [List.mem_cons, List.not_mem_nil, or_false] at hy
      rcases hy with rfl | rfl | rfl
      · exact .nil
      · exact .chars _ (by decide)
      · exact .int _
    · refine .ints _ _ _ ?_
      intro y hy
      simp only [List.mem_cons, List.not_mem_nil, or_false] at hy
      rcases hy with rfl | rfl <;> trivial

/-- C20 is false for every string containing a quotation mark: the formatter does not escape it,
    and the text parses to the part before it. -/
theorem quote_lost (s t : Bytes) (hs : Clean s) (ht : 0 ∉ t) (n : Nat) (hn : 2 ≤ n) (fuel : Nat)
    (hf : 2 * (format 0 (.chars (s ++ 34 :: t))).length + 1 ≤ fuel) :
    parse n fuel (format 0 (.chars (s ++ 34 :: t))) = .ok (.chars s, t ++ [34]) := by
  obtain ⟨n, rfl⟩ : ∃ m, n = m + 2 := ⟨n - 2, by omega⟩
  refine parse_of_runs (s' := ⟨t ++ [34], false⟩) ?_ fuel hf
  rw [format, StringFns.cstr_of_no_nul]
  · simpa using Runs.string (n + 2) s (t ++ [34]) hs.2.1 hs.2.2
  · have := hs.1; simp [this, ht]

-- a"b
example : Clean [97] ∧ (0 : UInt8) ∉ [98] := by decide

/-- C20 is false for arrays holding a single integer: the text parses to the integer itself. -/
theorem singleton_unwrapped (l : BitVec 64) (n : Nat) (hn : 2 ≤ n) (fuel : Nat)
    (hf : 2 * (format 0 (.arr [.long l])).length + 1 ≤ fuel) :
    parse n fuel (format 0 (.arr [.long l])) = .ok (.long l, []) := by
  obtain ⟨n, rfl⟩ : ∃ m, n = m + 2 := ⟨n - 2, by omega⟩
  obtain ⟨s', h3, h4⟩ := trips_arr [.long l] [.long l]
    (.cons ⟨trips_int _ _ (fun ind => by rw [format]), starts_int _ l.toInt (fun ind => by rw [format])⟩ .nil)
    (.long l) (by simp [push, Val.type]) n 0 [] (Or.inl rfl)
  rw [List.append_nil] at h3
  rw [parse_of_runs h3 fuel hf]
  rw [show s'.rest = [] from h4]

/-- C20 is false for empty arrays of vars: the text parses to nil. -/
theorem empty_array_lost (n : Nat) (hn : 2 ≤ n) (fuel : Nat)
    (hf : 2 * (format 0 (.arr [])).length + 1 ≤ fuel) :
    parse n fuel (format 0 (.arr [])) = .ok (.nil, []) := by
  obtain ⟨n, rfl⟩ : ∃ m, n = m + 2 := ⟨n - 2, by omega⟩
  obtain ⟨s', h3, h4⟩ := trips_arr [] [] .nil .nil rfl n 0 [] (Or.inl rfl)
  rw [List.append_nil] at h3
  rw [parse_of_runs h3 fuel hf]
  rw [show s'.rest = [] from h4]

/-! ## C21 -/

/-- C21 up to undefined behaviour in texts with brackets: parsing any text comes to an end; it
    gives a value, leaving unread a proper suffix of the text, or an exception; behaviour can be
    undefined only if the text contains `[`.  Missing for the full claim: texts with arrays, for
    which it is false (`nested_push_undefined`). -/
theorem json_settles_partial (s : Bytes) (n : Nat) (hn : 2 ≤ n) (fuel : Nat) (hf : 2 * s.length + 1 ≤ fuel) :
    (∃ v p r, parse n fuel s = .ok (v, r) ∧ s = p ++ r ∧ p ≠ []) ∨ (∃ e, parse n fuel s = .thrown e) ∨
    (91 ∈ s ∧ ∃ u, parse n fuel s = .ub u) := by
  obtain ⟨n, rfl⟩ : ∃ m, n = m + 2 := ⟨n - 2, by omega⟩
  have h := (settles n fuel).1 s hf
  unfold parse
  generalize doValue (n + 2) fuel s = o at h
  cases o with
  | ok r =>
    obtain ⟨p, hp⟩ : r.2.rest <:+ s := h.1
    refine Or.inl ⟨r.1, p, r.2.rest, rfl, hp.symm, ?_⟩
    rintro rfl
    have := h.2 r rfl
    rw [← hp] at this
    simp at this
  | thrown e => exact Or.inr (Or.inl ⟨e, rfl⟩)
  | ub u => exact Or.inr (Or.inr ⟨h.1, u, rfl⟩)
  | abort => exact absurd h.1 (by simp [Settles])
  | diverge => exact absurd h.1 (by simp [Settles])

/-- C21 is false for texts with arrays: an empty array after two or more numbers is stored among
    them by reading its (null) pointer as a number.  The text is `[1, 2 , []]` with any numbers in
    front. -/
theorem nested_push_undefined (p q : Bytes × Int) (ts : List (Bytes × Int))
    (hts : ∀ x ∈ p :: q :: ts, Numeral x.1 x.2 ∧ Fits x.2) (n : Nat) (hn : 2 ≤ n) (fuel : Nat)
    (hf : 2 * (91 :: listText ((p :: q :: ts).map Prod.fst) ++ [32, 44, 32, 91, 93, 93]).length + 1 ≤ fuel) :
    parse n fuel (91 :: listText ((p :: q :: ts).map Prod.fst) ++ [32, 44, 32, 91, 93, 93]) = .ub .typePun := by
  obtain ⟨n, rfl⟩ : ∃ m, n = m + 2 := ⟨n - 2, by omega⟩
  have h1 : Runs (n + 2) [91, 93, 93] .nil ⟨[93], false⟩ := Runs.array (RunsA.close _ [93] .nil)
  have h2 : EndsA (n + 2) ⟨[91, 93, 93], false⟩ (accum ([] ++ (p :: q :: ts).map (fun p => BitVec.ofInt 64 p.2)))
      (.ub .typePun) := EndsA.bad h1 rfl ⟨91, [93, 93], rfl, by decide, by decide⟩
  have h3 := (h2.skip (t := [32, 91, 93, 93]) rfl).comma
  exact parse_of_ends (ends_list (n + 2) 32 (by decide) _ _ (p :: q :: ts) hts (by simp) [] h3) fuel hf

-- [1, -2 , []]
example : ∀ x ∈ [(([49] : Bytes), (1 : Int)), ([45, 50], -2)], Numeral x.1 x.2 ∧ Fits x.2 := by
  intro x hx
  simp only [List.mem_cons, List.not_mem_nil, or_false] at hx
  rcases hx with rfl | rfl
  · exact ⟨⟨[1], ⟨by simp, by decide⟩, Or.inl ⟨by decide, by decide⟩⟩, by decide⟩
  · exact ⟨⟨[2], ⟨by simp, by decide⟩, Or.inr ⟨by decide, by decide⟩⟩, by decide⟩

/-! ## C22 -/

/-- C22 for integers of 64 bits: a numeral, alone or followed by a delimiter, parses to a long of
    the number it denotes.  Missing for the full claim: numerals with a fraction or an exponent,
    for which it is false (`fraction_truncated`), and larger integers, which become doubles by a
    conversion of the C++ library that is not modelled. -/
theorem integer_numerals_keep_value_partial (t : Bytes) (i : Int) (h : Numeral t i) (hi : Fits i) (n : Nat)
    (hn : 2 ≤ n) (fuel : Nat) :
    (2 * t.length + 1 ≤ fuel → ∃ l : BitVec 64, parse n fuel t = .ok (.long l, []) ∧ l.toInt = i) ∧
    (∀ c ∈ ([32, 9, 10, 13, 44, 91, 93, 123, 125] : Bytes), ∀ u, 2 * (t ++ c :: u).length + 1 ≤ fuel →
      ∃ l : BitVec 64, parse n fuel (t ++ c :: u) = .ok (.long l, u) ∧ l.toInt = i) := by
  obtain ⟨n, rfl⟩ : ∃ m, n = m + 2 := ⟨n - 2, by omega⟩
  have hl : (BitVec.ofInt 64 i).toInt = i := by
    rw [BitVec.toInt_ofInt]
    refine Int.bmod_eq_of_le ?_ ?_
    · have := hi.1; omega
    · have := hi.2; omega
  refine ⟨fun hf => ⟨_, parse_of_runs (h.runs_end hi (n + 2)) fuel hf, hl⟩, fun c hc u hf => ⟨_, ?_, hl⟩⟩
  refine parse_of_runs (s' := ⟨u, false⟩) (h.runs hi (n + 2) c u ?_) fuel hf
  simp only [List.mem_cons, List.not_mem_nil, or_false] at hc
  rcases hc with rfl | rfl | rfl | rfl | rfl | rfl | rfl | rfl | rfl <;> decide

-- "-042"
example : Numeral [45, 48, 52, 50] (-42) ∧ Fits (-42) :=
  ⟨⟨[0, 4, 2], ⟨by simp, by decide⟩, Or.inr ⟨by decide, by decide⟩⟩, by decide⟩

/-- C22 is false for every numeral with a fraction or an exponent: the value is the integer before
    the point or the letter, whatever follows. -/
theorem fraction_truncated (t : Bytes) (i : Int) (h : Numeral t i) (hi : Fits i) (c : UInt8)
    (hc : c = 46 ∨ c = 101 ∨ c = 69) (u : Bytes) (hu : ∀ x ∈ u, isdigit x = true ∨ x = 45 ∨ x = 43) (n : Nat)
    (hn : 2 ≤ n) (fuel : Nat) (hf : 2 * (t ++ c :: u).length + 1 ≤ fuel) :
    ∃ l : BitVec 64, parse n fuel (t ++ c :: u) = .ok (.long l, []) ∧ l.toInt = i := by
  obtain ⟨n, rfl⟩ : ∃ m, n = m + 2 := ⟨n - 2, by omega⟩
  have hl : (BitVec.ofInt 64 i).toInt = i := by
    rw [BitVec.toInt_ofInt]
    refine Int.bmod_eq_of_le ?_ ?_
    · have := hi.1; omega
    · have := hi.2; omega
  refine ⟨_, parse_of_runs (s' := ⟨[], true⟩) ?_ fuel hf, hl⟩
  obtain ⟨d, r, he, hd⟩ := h.starts
  have hp := isdigit_plain d hd
  refine Runs.raw ?_ ⟨d, r ++ c :: u, by rw [he]; rfl, hp.1, hp.2.2.2.1, hp.2.2.2.2.1, hp.2.2.1⟩
  unfold doRaw
  have hdel : ∀ x ∈ t ++ c :: u, isDelim x = false := by
    intro x hx
    simp only [List.mem_append, List.mem_cons] at hx
    rcases hx with hx | rfl | hx
    · exact (isdigit_plain x (h.chars x hx)).2.1
    · rcases hc with rfl | rfl | rfl <;> decide
    · rcases hu x hx with h' | rfl | rfl
      · exact (isdigit_plain x (Or.inl h')).2.1
      · decide
      · decide
  rw [rawLoop_end [] _ hdel]
  have hr := h.read hi (c :: u) (by
    intro x hx
    simp only [List.head?_cons, Option.some.injEq] at hx
    subst hx
    rcases hc with rfl | rfl | rfl <;> decide)
  have hv : rawValue (t ++ c :: u) = .ok (.long (BitVec.ofInt 64 i)) := by
    refine rawValue_of_read hr ?_
    intro x hx
    rw [he] at hx
    simp only [List.cons_append, List.head?_cons, Option.some.injEq] at hx
    subst hx
    exact ⟨hp.2.2.2.2.2.2.2.1, hp.2.2.2.2.2.2.2.2.1, hp.2.2.2.2.2.2.2.2.2.1⟩
  simp [hv]

-- "3.14"
example : Numeral [51] 3 ∧ Fits 3 ∧ ∀ x ∈ ([49, 52] : Bytes), isdigit x = true ∨ x = 45 ∨ x = 43 :=
  ⟨⟨[3], ⟨by simp, by decide⟩, Or.inl ⟨by decide, by decide⟩⟩, by decide, by decide⟩

/-! ## C23 -/

/-- C23 is false for every non-empty list: the bracket after the last number is taken for part of
    the number, the array never ends, and the text is rejected. -/
theorem array_text_rejected (ts : List (Bytes × Int)) (hts : ∀ p ∈ ts, Numeral p.1 p.2 ∧ Fits p.2) (hne : ts ≠ [])
    (n : Nat) (hn : 2 ≤ n) (fuel : Nat) (hf : 2 * (91 :: listText (ts.map Prod.fst) ++ [93]).length + 1 ≤ fuel) :
    ∃ e, parse n fuel (91 :: listText (ts.map Prod.fst) ++ [93]) = .thrown e := by
  obtain ⟨n, rfl⟩ : ∃ m, n = m + 2 := ⟨n - 2, by omega⟩
  exact ⟨_, parse_of_ends (ends_list (n + 2) 93 (by decide) [] _ ts hts hne [] (EndsA.end _ _)) fuel hf⟩

-- "[1, -2]"
example : 91 :: listText [[49], [45, 50]] ++ [93] = ([91, 49, 44, 32, 45, 50, 93] : Bytes) ∧
    Numeral [49] 1 ∧ Numeral [45, 50] (-2) ∧ Fits 1 ∧ Fits (-2) :=
  ⟨by decide, ⟨[1], ⟨by simp, by decide⟩, Or.inl ⟨by decide, by decide⟩⟩,
    ⟨[2], ⟨by simp, by decide⟩, Or.inr ⟨by decide, by decide⟩⟩, by decide, by decide⟩

/-- C23 if there is a blank before the closing bracket and at least two numbers: the text parses
    to the array of the numbers.  Missing for the full claim: standard notation, for which it is
    false (`array_text_rejected`), and single numbers, which do not become an array. -/
theorem spaced_array_partial (p q : Bytes × Int) (ts : List (Bytes × Int))
    (hts : ∀ x ∈ p :: q :: ts, Numeral x.1 x.2 ∧ Fits x.2) (n : Nat) (hn : 2 ≤ n) (fuel : Nat)
    (hf : 2 * (91 :: listText ((p :: q :: ts).map Prod.fst) ++ [32, 93]).length + 1 ≤ fuel) :
    ∃ ls : List (BitVec 64), parse n fuel (91 :: listText ((p :: q :: ts).map Prod.fst) ++ [32, 93]) =
      .ok (.longs ls, []) ∧ ls.map BitVec.toInt = (p :: q :: ts).map Prod.snd := by
  obtain ⟨n, rfl⟩ : ∃ m, n = m + 2 := ⟨n - 2, by omega⟩
  have h := ends_list (n + 2) 32 (by decide) [93] _ (p :: q :: ts) hts (by simp) [] (EndsA.close _ [] _)
  refine ⟨(p :: q :: ts).map (fun (p : Bytes × Int) => BitVec.ofInt 64 p.2), parse_of_ends h fuel hf, ?_⟩
  rw [List.map_map]
  refine List.map_congr_left ?_
  intro x hx
  have hi := (hts x hx).2
  simp only [Function.comp]
  rw [BitVec.toInt_ofInt]
  refine Int.bmod_eq_of_le ?_ ?_
  · have := hi.1; omega
  · have := hi.2; omega

/-! ## C24 -/

/-- The text stands for the value whatever follows it. -/
def ValueText (n : Nat) (t : Bytes) (v : Val) : Prop :=
  ∀ u fuel, 2 * (t ++ u).length + 1 ≤ fuel → doValue n fuel (t ++ u) = .ok (v, ⟨u, false⟩)

theorem ValueText.runs {n t v} (h : ValueText n t v) (u : Bytes) : Runs n (t ++ u) v ⟨u, false⟩ :=
  ⟨_, h u _ (Nat.le_refl _)⟩

theorem valueText_of_runs {n t v} (h : ∀ u, Runs (n + 2) (t ++ u) v ⟨u, false⟩) : ValueText (n + 2) t v :=
  fun u fuel hf => doValue_of_runs (h u) fuel hf

/-- String literals without special characters. -/
theorem valueText_string (n : Nat) (hn : 2 ≤ n) (s : Bytes) (hs : Clean s) :
    ValueText n (34 :: s ++ [34]) (.chars s) := by
  obtain ⟨n, rfl⟩ : ∃ m, n = m + 2 := ⟨n - 2, by omega⟩
  exact valueText_of_runs (fun u => by simpa using Runs.string (n + 2) s u hs.2.1 hs.2.2)

/-- Integers followed by a blank. -/
theorem valueText_number (n : Nat) (hn : 2 ≤ n) (t : Bytes) (i : Int) (h : Numeral t i) (hi : Fits i) :
    ValueText n (t ++ [32]) (.long (BitVec.ofInt 64 i)) := by
  obtain ⟨n, rfl⟩ : ∃ m, n = m + 2 := ⟨n - 2, by omega⟩
  exact valueText_of_runs (fun u => by simpa using h.runs hi (n + 2) 32 u (by decide))

theorem memberText_cons (k t : Bytes) (ms : List (Bytes × Bytes)) :
    memberText ((k, t) :: ms) = 34 :: k ++ [34, 58] ++ t ++ (if ms = [] then [] else 44 :: memberText ms) := by
  cases ms with
  | nil => simp [memberText]
  | cons m ms => obtain ⟨k', t'⟩ := m; simp [memberText]

theorem runs_object (n : Nat) (u : Bytes) (ms : List (Bytes × Bytes × Val))
    (hk : ∀ m ∈ ms, Clean m.1) (hv : ∀ m ∈ ms, ValueText (n + 2) m.2.1 m.2.2) (acc ps : List (Val × Val))
    (hr : mapRun (n + 2) acc (ms.map (fun m => .set (.chars m.1) m.2.2)) = .ok ps) (key : Option Bytes) :
    RunsO (n + 2) ⟨memberText (ms.map (fun m => (m.1, m.2.1))) ++ 125 :: u, false⟩ acc key (.map ps) ⟨u, false⟩ := by
  induction ms generalizing acc key with
  | nil =>
    simp only [List.map_nil, mapRun, Outcome.ok.injEq] at hr
    subst hr
    exact RunsO.close _ u acc key
  | cons m ms ih =>
    obtain ⟨k, t, v⟩ := m
    simp only [List.map_cons, mapRun, MapOp.run] at hr
    cases hset : mapSet (n + 2) acc (.chars k) v with
    | ok acc' =>
      rw [hset] at hr
      have ih := ih (fun m hm => hk m (by simp [hm])) (fun m hm => hv m (by simp [hm])) acc' hr
      have hkk := hk (k, t, v) (by simp)
      have hvv := hv (k, t, v) (by simp)
      rw [List.map_cons, memberText_cons]
      have key : ∀ w, RunsO (n + 2) ⟨w, false⟩ acc' (some k) (.map ps) ⟨u, false⟩ →
          RunsO (n + 2) ⟨34 :: k ++ 34 :: 58 :: (t ++ w), false⟩ acc key (.map ps) ⟨u, false⟩ :=
        fun w hw => RunsO.key hkk.2.1 hkk.2.2 (RunsO.value (hvv.runs w) hset hw)
      cases ms with
      | nil => simpa [memberText] using key (125 :: u) (by simpa [memberText] using ih (some k))
      | cons m ms => simpa using key _ (ih none).comma
    | thrown e => rw [hset] at hr; simp at hr
    | ub e => rw [hset] at hr; simp at hr
    | abort => rw [hset] at hr; simp at hr
    | diverge => rw [hset] at hr; simp at hr

/-- C24 for members whose values are self-delimiting texts (strings, numbers followed by a blank,
    such objects themselves): the object read has the value of the last occurrence for each key,
    nil for every other key, and exactly the distinct keys, in strictly ascending order.  `ms` lists key,
    text of the value, and value.  Missing for the full claim: values that are numbers followed
    directly by the closing brace, for which it is false (`number_before_brace_rejected`), and keys with
    escapes. -/
theorem object_last_binding_partial (ms : List (Bytes × Bytes × Val)) (n : Nat) (hn : 2 ≤ n)
    (hk : ∀ m ∈ ms, Clean m.1) (hv : ∀ m ∈ ms, ValueText n m.2.1 m.2.2) :
    ∃ ps, ValueText n (123 :: memberText (ms.map (fun m => (m.1, m.2.1))) ++ [125]) (.map ps) ∧
      (∀ a b k t v, ms = a ++ (k, t, v) :: b → (∀ m ∈ b, m.1 ≠ k) → mapAt n ps (.chars k) = .ok v) ∧
      (∀ k, Clean k → (∀ m ∈ ms, m.1 ≠ k) → mapAt n ps (.chars k) = .ok .nil) ∧
      (∀ k, k ∈ ps.map Prod.fst ↔ ∃ m ∈ ms, k = .chars m.1) ∧
      (ps.map Prod.fst).Pairwise KeyLt := by
  obtain ⟨n, rfl⟩ : ∃ m, n = m + 2 := ⟨n - 2, by omega⟩
  have hkeys : ∀ op ∈ ms.map (fun m => MapOp.set (.chars m.1) m.2.2), IsKey (MapSpec.keyOf op) := by
    intro op hop
    obtain ⟨m, hm, rfl⟩ := List.mem_map.1 hop
    exact (hk m hm).1
  obtain ⟨ps, h1, h2, h3, h4, hw⟩ := Maps.history (isKey_class n) (fun a b => Order.sameKey_iff) _ hkeys
  refine ⟨ps, valueText_of_runs (fun u => ?_), ?_, ?_, ?_, ?_⟩
  · have := Runs.object (runs_object n u ms hk hv [] ps h1 none)
    simpa using this
  · rintro a b k t v rfl hb
    refine (h2 (.chars k) v (hk (k, t, v) (by simp)).1 ⟨a.map _, b.map _, .chars k, List.map_append, rfl, ?_⟩).1
    intro k'' v'' hm
    obtain ⟨m, hmb, he⟩ := List.mem_map.1 hm
    simp only [MapOp.set.injEq] at he
    obtain ⟨rfl, -⟩ := he
    exact hb m hmb
  · intro k hk' hm
    refine h3 (.chars k) hk'.1 ?_
    intro k' v' hm'
    obtain ⟨m, hmm, he⟩ := List.mem_map.1 hm'
    simp only [MapOp.set.injEq] at he
    obtain ⟨rfl, -⟩ := he
    exact hm m hmm
  · intro k
    constructor
    · intro hk'
      obtain ⟨op, hop, he⟩ := h4.2.2 k hk'
      obtain ⟨m, hm, rfl⟩ := List.mem_map.1 hop
      refine ⟨m, hm, ?_⟩
      cases k with
      | chars s => rw [show s = m.1 from he]
      | _ => exact absurd he (by simp [SameKey, MapSpec.keyOf])
    · rintro ⟨m, hm, rfl⟩
      obtain ⟨k, hk', he⟩ := h4.2.1 (.set (.chars m.1) m.2.2) (List.mem_map_of_mem hm)
      cases k with
      | chars s => rw [← show s = m.1 from he]; exact hk'
      | _ => exact absurd he (by simp [SameKey, MapSpec.keyOf])
  · rw [List.pairwise_map]
    exact List.Pairwise.imp_of_mem (fun {p q} hp hq hlt =>
      (Order.keyLt_iff (hw.keys p hp) (hw.keys q hq)).2 hlt) hw.sorted

-- {"b":"x","a":1 ,"b":2 }
example : (∀ m ∈ [(([98] : Bytes), ([34, 120, 34] : Bytes), Val.chars [120]), ([97], [49, 32], .long 1), ([98], [50, 32], .long 2)],
      Clean m.1) ∧
    ∀ m ∈ [(([98] : Bytes), ([34, 120, 34] : Bytes), Val.chars [120]), ([97], [49, 32], .long 1), ([98], [50, 32], .long 2)],
      ValueText 2 m.2.1 m.2.2 := by
  refine ⟨by decide, ?_⟩
  intro m hm
  simp only [List.mem_cons, List.not_mem_nil, or_false] at hm
  rcases hm with rfl | rfl | rfl
  · exact valueText_string 2 (by omega) [120] (by decide)
  · exact valueText_number 2 (by omega) [49] 1 ⟨[1], ⟨by simp, by decide⟩, Or.inl ⟨by decide, by decide⟩⟩ (by decide)
  · exact valueText_number 2 (by omega) [50] 2 ⟨[2], ⟨by simp, by decide⟩, Or.inl ⟨by decide, by decide⟩⟩ (by decide)

/-- C24 is false as soon as a number is followed by the closing brace, `{"k":1}`: the brace is
    taken with the number, and the text is rejected. -/
theorem number_before_brace_rejected (k t : Bytes) (i : Int) (hk : Clean k) (h : Numeral t i) (hi : Fits i) (n : Nat)
    (hn : 2 ≤ n) (fuel : Nat) (hf : 2 * (123 :: memberText [(k, t)] ++ [125]).length + 1 ≤ fuel) :
    parse n fuel (123 :: memberText [(k, t)] ++ [125]) = .thrown (.error "Unknown character") := by
  obtain ⟨n, rfl⟩ : ∃ m, n = m + 2 := ⟨n - 2, by omega⟩
  obtain ⟨f, hr⟩ := h.runs hi (n + 2) 125 [] (by decide)
  have hset : ∃ ps, mapSet (n + 2) [] (.chars k) (.long (BitVec.ofInt 64 i)) = .ok ps := by
    obtain ⟨ps, h1, -⟩ := mapSet_total n [] (by intro p hp; simp at hp) k (.long (BitVec.ofInt 64 i))
    exact ⟨ps, h1⟩
  obtain ⟨ps, hset⟩ := hset
  have h1 : objLoop (n + 2) (f + 2) ⟨34 :: k ++ 34 :: 58 :: (t ++ [125]), false⟩ [] none =
      .thrown (.error "Unknown character") := by
    rw [objLoop]
    simp only [List.cons_append, skip_head (show isspace 34 = false by decide), Bool.false_eq_true, if_false,
      doString, strLoop_clean [] k (58 :: (t ++ [125])) hk.2.1 hk.2.2, Outcome.bind_ok, List.nil_append]
    rw [objLoop]
    simp only [skip_head (show isspace 58 = false by decide), Bool.false_eq_true, if_false, hr, Outcome.bind_ok,
      bindKey, hset]
    cases f with
    | zero => simp [doValue] at hr
    | succ f =>
      rw [objLoop]
      simp [skip]
  have h2 : doValue (n + 2) (f + 3) (123 :: memberText [(k, t)] ++ [125]) = .thrown (.error "Unknown character") := by
    rw [doValue]
    simp only [memberText, List.cons_append, skip_head (show isspace 123 = false by decide)]
    simpa using h1
  have h3 := doValue_mono h2 (by simp) (Nat.le_max_left (f + 3) fuel)
  have h4 : doValue (n + 2) fuel (123 :: memberText [(k, t)] ++ [125]) ≠ .diverge := by
    intro hc
    have := ((settles n fuel).1 _ hf).1
    rw [hc] at this; exact this
  have h5 := doValue_mono (f' := max (f + 3) fuel) rfl h4 (Nat.le_max_right (f + 3) fuel)
  unfold parse
  rw [← h5, h3]; rfl

/-! ## C78 -/

/-- C78: the words `true`, `false` and `null`, alone or followed by a delimiter, which they take
    with them, read as 1, 0 and nil. -/
theorem words_read (w : Bytes) (v : Val) (h : (w, v) ∈ words) (n : Nat) (hn : 2 ≤ n) (fuel : Nat) :
    (2 * w.length + 1 ≤ fuel → parse n fuel w = .ok (v, [])) ∧
    (∀ c ∈ ([32, 9, 10, 13, 44, 91, 93, 123, 125] : Bytes), ∀ u, 2 * (w ++ c :: u).length + 1 ≤ fuel →
      parse n fuel (w ++ c :: u) = .ok (v, u)) := by
  obtain ⟨n, rfl⟩ : ∃ m, n = m + 2 := ⟨n - 2, by omega⟩
  have hv : rawValue w = .ok v ∧ (∀ c ∈ w, isDelim c = false) ∧
      ∃ c r, w = c :: r ∧ isspace c = false ∧ c ≠ 123 ∧ c ≠ 91 ∧ c ≠ 34 := by
    simp only [words, List.mem_cons, List.not_mem_nil, or_false, Prod.mk.injEq] at h
    rcases h with ⟨rfl, rfl⟩ | ⟨rfl, rfl⟩ | ⟨rfl, rfl⟩
    · exact ⟨rfl, by decide, _, _, rfl, by decide, by decide, by decide, by decide⟩
    · exact ⟨rfl, by decide, _, _, rfl, by decide, by decide, by decide, by decide⟩
    · exact ⟨rfl, by decide, _, _, rfl, by decide, by decide, by decide, by decide⟩
  obtain ⟨h1, h2, c, r, rfl, h3, h4, h5, h6⟩ := hv
  refine ⟨fun hf => parse_of_runs (s' := ⟨[], true⟩) (Runs.raw ?_ ⟨c, r, rfl, h3, h4, h5, h6⟩) fuel hf,
    fun d hd u hf => parse_of_runs (s' := ⟨u, false⟩)
      (Runs.raw ?_ ⟨c, r ++ d :: u, rfl, h3, h4, h5, h6⟩) fuel hf⟩
  · unfold doRaw; rw [rawLoop_end [] _ h2]; simp [h1]
  · unfold doRaw
    rw [← List.cons_append, rawLoop_delim [] _ d u h2 (by
      simp only [List.mem_cons, List.not_mem_nil, or_false] at hd
      rcases hd with rfl | rfl | rfl | rfl | rfl | rfl | rfl | rfl | rfl <;> decide)]
    simp [h1]

/-! ## C79 -/

theorem strLoop_escaped (acc s t : Bytes) (h : 92 ∉ s) :
    strLoop acc (escaped s ++ 34 :: t) = .ok (acc ++ s, t) := by
  induction s generalizing acc with
  | nil => rw [escaped, List.nil_append, strLoop.eq_def]; simp
  | cons c s ih =>
    simp only [List.mem_cons, not_or] at h
    rw [escaped]
    by_cases hc : c = 34
    · subst hc
      rw [if_pos rfl]
      simp only [List.cons_append, List.nil_append]
      rw [strLoop.eq_def]
      simp only [show (92 : UInt8) ≠ 34 by decide, if_false, if_true]
      rw [ih _ h.2]; simp
    · rw [if_neg hc]
      simp only [List.cons_append, List.nil_append]
      rw [strLoop.eq_def]
      simp only [if_neg hc, if_neg (Ne.symm h.1)]
      rw [ih _ h.2]; simp

/-- C79 for strings without backslashes: the string literal in which quotation marks are escaped
    reads as the string, every other byte (NUL included) standing for itself.  Missing for the
    full claim: the escapes of JSON other than the quotation mark, which are rejected
    (`escape_rejected`). -/
theorem string_literal_partial (s u : Bytes) (h : 92 ∉ s) (n : Nat) (hn : 2 ≤ n) (fuel : Nat)
    (hf : 2 * (34 :: escaped s ++ 34 :: u).length + 1 ≤ fuel) :
    parse n fuel (34 :: escaped s ++ 34 :: u) = .ok (.chars s, u) := by
  obtain ⟨n, rfl⟩ : ∃ m, n = m + 2 := ⟨n - 2, by omega⟩
  refine parse_of_runs (s' := ⟨u, false⟩) ⟨1, ?_⟩ fuel hf
  rw [doValue]
  simp only [List.cons_append, skip_head (show isspace 34 = false by decide), doString,
    strLoop_escaped [] s u h, Outcome.bind_ok, List.nil_append]

-- a"b<NUL>
example : (92 : UInt8) ∉ [97, 34, 98, 0] ∧ escaped [97, 34, 98, 0] = [97, 92, 34, 98, 0] := by decide

/-- C79 is false for every other escape of JSON, of a backslash or a line break for instance: the text is rejected
    whatever precedes and follows. -/
theorem escape_rejected (s u : Bytes) (h : Clean s) (c : UInt8) (hc : c ≠ 34) (n : Nat) (hn : 2 ≤ n) (fuel : Nat)
    (hf : 2 * (34 :: s ++ 92 :: c :: u).length + 1 ≤ fuel) :
    parse n fuel (34 :: s ++ 92 :: c :: u) = .thrown (.error "Unrecognised JSON string escape") := by
  have h1 : ∀ acc, strLoop acc (s ++ 92 :: c :: u) = .thrown (.error "Unrecognised JSON string escape") := by
    obtain ⟨-, hs1, hs2⟩ := h
    clear hf
    induction s with
    | nil =>
      intro acc
      rw [List.nil_append, strLoop.eq_def]
      simp only [show (92 : UInt8) ≠ 34 by decide, if_false, if_true]
      split
      · rename_i he; simp only [List.cons.injEq] at he; exact absurd he.1 hc
      · rfl
    | cons d s ih =>
      intro acc
      simp only [List.mem_cons, not_or] at hs1 hs2
      rw [List.cons_append, strLoop.eq_def]
      simp only [if_neg (Ne.symm hs1.1), if_neg (Ne.symm hs2.1)]
      exact ih hs1.2 hs2.2 _
  obtain ⟨fuel, rfl⟩ : ∃ m, fuel = m + 1 := ⟨fuel - 1, by omega⟩
  unfold parse
  rw [doValue]
  simp only [List.cons_append, skip_head (show isspace 34 = false by decide), doString, h1, Outcome.bind_thrown]

-- "a\n"
example : Clean [97] ∧ (110 : UInt8) ≠ 34 := by decide

#print axioms words_read
#print axioms string_literal_partial
#print axioms escape_rejected
#print axioms json_round_trip_partial
#print axioms quote_lost
#print axioms singleton_unwrapped
#print axioms empty_array_lost
#print axioms json_settles_partial
#print axioms nested_push_undefined
#print axioms integer_numerals_keep_value_partial
#print axioms fraction_truncated
#print axioms array_text_rejected
#print axioms spaced_array_partial
#print axioms valueText_string
#print axioms valueText_number
#print axioms object_last_binding_partial
#print axioms number_before_brace_rejected

end Libube.Json

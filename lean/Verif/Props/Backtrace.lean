import Mathlib.Tactic.Ring
import Verif.Model.Backtrace
import Verif.Spec.Backtrace
import Verif.Spec.Json
import Verif.Lemmas.StringFns
import Verif.Lemmas.JsonNum

/-! # C132, C133: the text of errors -/

namespace Libube.BacktraceProps

open CString Backtrace BacktraceSpec

theorem strchr_append {c : UInt8} : ∀ (a b : Bytes), c ∉ a → strchr (a ++ c :: b) c = some a.length
  | [], b, _ => by simp [strchr]
  | d :: a, b, h => by
    simp only [List.mem_cons, not_or] at h
    rw [List.cons_append, strchr, if_neg (Ne.symm h.1), strchr_append a b h.2]
    simp

theorem strchr_none {c : UInt8} : ∀ (a : Bytes), c ∉ a → strchr a c = none
  | [], _ => rfl
  | d :: a, h => by
    simp only [List.mem_cons, not_or] at h
    rw [strchr, if_neg (Ne.symm h.1), strchr_none a h.2]
    rfl

/-- An occurrence is where the character is. -/
theorem strchr_get {c : UInt8} : ∀ (a : Bytes) (i : Nat), strchr a c = some i → a[i]? = some c
  | d :: a, i, h => by
    rw [strchr] at h
    split at h
    · rename_i hd
      simp only [Option.some.injEq] at h
      subst h; simp [hd]
    · simp only [Option.map_eq_some_iff] at h
      obtain ⟨j, hj, rfl⟩ := h
      simpa using strchr_get a j hj

/-- One call that has a name. -/
theorem loop_call (dem : Demangle) (held : Bool) (lost : Nat) (c : Call) (hc : c.Plain) (ss : List Bytes) :
    loop dem held lost (c.text :: ss) = (do
      let (rest, lost) ← loop dem (decide ((dem c.name).1 = 0)) (if (dem c.name).1 = 0 then lost else lost + held.toNat) ss
      .ok (indent ++ shown (dem c.name).1 (dem c.name).2 c.name ++ rest, lost)) := by
  obtain ⟨h1, h2, h3, -⟩ := hc
  have e1 : c.text = c.file ++ 40 :: (c.name ++ 43 :: (c.offset ++ [41, 32, 91] ++ c.addr ++ [93])) := by
    simp [Call.text]
  have e2 : strchr c.text 40 = some c.file.length := by rw [e1]; exact strchr_append _ _ h1
  have e3 : c.text.drop (c.file.length + 1) = c.name ++ 43 :: (c.offset ++ [41, 32, 91] ++ c.addr ++ [93]) := by
    rw [e1, List.drop_append]
    simp
  have e4 : strchr c.text 41 ≠ some (c.file.length + 1) := by
    intro h
    have := strchr_get _ _ h
    rw [← Nat.add_zero (c.file.length + 1), ← List.getElem?_drop, e3] at this
    cases hn : c.name with
    | nil => rw [hn] at this; simp at this
    | cons d n =>
      rw [hn] at this
      simp only [List.cons_append, List.getElem?_cons_zero, Option.some.injEq] at this
      exact h3 (by rw [hn]; simp [this])
  rw [loop, e2]
  simp only [if_neg e4, e3, strchr_append _ _ h2, List.take_left]

theorem loop_calls (dem : Demangle) (ha : Answers dem) (ss : List Bytes) : ∀ (cs : List Call), (∀ c ∈ cs, c.Plain) →
    ∀ (held : Bool) (lost : Nat), ∃ held' lost',
      loop dem held lost (cs.map Call.text ++ ss) = (do
        let (rest, lost) ← loop dem held' lost' ss
        .ok ((cs.flatMap fun c => indent ++ readable dem c.name) ++ rest, lost)) ∧ lost ≤ lost' ∧
      ((∃ c ∈ cs, (dem c.name).1 ≠ 0) → lost + held.toNat ≤ lost') ∧
      ((∀ c ∈ cs, (dem c.name).1 = 0) → lost' = lost)
  | [], _, held, lost => by
    refine ⟨held, lost, ?_, Nat.le_refl _, by simp, by simp⟩
    simp only [List.map_nil, List.nil_append, List.flatMap_nil]
    cases loop dem held lost ss <;> rfl
  | c :: cs, h, held, lost => by
    have hc := h c (by simp)
    obtain ⟨held', lost', h1, h2, h3, h4⟩ := loop_calls dem ha ss cs (fun c hc => h c (by simp [hc]))
      (decide ((dem c.name).1 = 0)) (if (dem c.name).1 = 0 then lost else lost + held.toNat)
    refine ⟨held', lost', ?_, ?_, ?_, ?_⟩
    · rw [List.map_cons, List.cons_append, loop_call dem held lost c hc, h1]
      have hs : shown (dem c.name).1 (dem c.name).2 c.name = readable dem c.name := by
        rcases ha c.name with ⟨ha, hb⟩ | ha
        · rw [shown, readable, if_pos ha, if_pos ha, StringFns.cstr_of_no_nul _ hb]
        · rw [shown, readable, ha]; simp
      rw [hs]
      cases loop dem held' lost' ss <;> simp
    · split at h2 <;> omega
    · rintro ⟨d, hd, hne⟩
      by_cases h0 : (dem c.name).1 = 0
      · simp only [h0, if_true, decide_true, Bool.toNat_true] at h2 h3
        rcases List.mem_cons.1 hd with rfl | hd
        · exact absurd h0 hne
        · have := h3 ⟨d, hd, hne⟩
          cases held <;> simp only [Bool.toNat_true, Bool.toNat_false] <;> omega
      · rw [if_neg h0] at h2; exact h2
    · intro hall
      have h0 := hall c (by simp)
      rw [h4 (fun c hc => hall c (by simp [hc])), if_pos h0]

theorem no_nul_stack (dem : Demangle) (ha : Answers dem) (cs : List Call) (h : ∀ c ∈ cs, c.Plain) (n : Nat) :
    (0 : UInt8) ∉ stackText ++ showNat n ++ [41, 58] ++ (cs.flatMap fun c => indent ++ readable dem c.name) := by
  intro hm
  simp only [List.mem_append, List.mem_flatMap] at hm
  rcases hm with ((hm | hm) | hm) | ⟨c, hc, hm | hm⟩
  · exact absurd hm (by decide)
  · exact absurd (Json.showNat_digits n 0 hm) (by decide)
  · exact absurd hm (by decide)
  · exact absurd hm (by decide)
  · rw [readable] at hm
    rcases ha c.name with ⟨h1, h2⟩ | h1
    · rw [if_pos h1] at hm; exact h2 hm
    · rw [h1] at hm; exact (h c hc).2.2.2 hm

theorem lines_eq (dem : Demangle) (cs : List Call) :
    (cs.flatMap fun c => indent ++ readable dem c.name) = lines dem cs := rfl

/-- C132 for calls of functions with names: what an error says is the message, in quotation marks, and one line for each call.
    Missing for the full claim: calls whose function has no name, which end the list (`nameless_cuts`), and calls in a place that belongs to no file, for
    which behaviour is undefined (`no_file_undefined`). -/
theorem error_text_partial (dem : Demangle) (ha : Answers dem) (m : Bytes) (hm : 0 ∉ m) (cs : List Call) (h : ∀ c ∈ cs, c.Plain) :
    ∃ lost, what dem (.chars m) (some (cs.map Call.text)) =
      .ok (ascii "\"" ++ m ++ ascii "\"\nCall stack (size " ++ showNat cs.length ++ ascii "):" ++ lines dem cs, lost) := by
  obtain ⟨held', lost', h1, -⟩ := loop_calls dem ha [] cs h true 0
  rw [List.append_nil] at h1
  refine ⟨lost', ?_⟩
  rw [what, backTrace, h1]
  simp only [loop, Outcome.bind_ok, List.append_nil, List.length_map, Json.format, StringFns.cstr_of_no_nul m hm]
  have hn := no_nul_stack dem ha cs h cs.length
  rw [lines_eq] at hn ⊢
  rw [StringFns.cstr_of_no_nul]
  · have e1 : ascii "\"" = [34] := by decide
    have e2 : ascii "\"\nCall stack (size " = 34 :: stackText := by decide
    have e3 : ascii "):" = [41, 58] := by decide
    rw [e1, e2, e3]
    simp
  · simp only [List.mem_append, not_or] at hn ⊢
    exact ⟨⟨by simp [hm], by decide⟩, hn⟩

-- p(main+0x1) [0x2]
example : Answers (fun n => (-2, n)) ∧ (⟨[112], [109, 97, 105, 110], [48, 120, 49], [48, 120, 50]⟩ : Call).Plain ∧
    (⟨[112], [109, 97, 105, 110], [48, 120, 49], [48, 120, 50]⟩ : Call).text = ascii "p(main+0x1) [0x2]" := by
  refine ⟨fun n => Or.inr rfl, by unfold Call.Plain; decide, by decide⟩

/-- C132 is false if a call has no name: the list ends there, on the same line, whatever calls follow. -/
theorem nameless_cuts (dem : Demangle) (ha : Answers dem) (m : Bytes) (hm : 0 ∉ m) (cs : List Call) (h : ∀ c ∈ cs, c.Plain)
    (file addr : Bytes) (hf : 40 ∉ file ∧ 41 ∉ file) (rest : List Bytes) :
    ∃ lost, what dem (.chars m) (some (cs.map Call.text ++ nameless file addr :: rest)) =
      .ok (ascii "\"" ++ m ++ ascii "\"\nCall stack (size " ++ showNat (cs.length + 1 + rest.length) ++ ascii "):" ++ lines dem cs ++
        ascii "(undefined)", lost) ∧ 0 < lost := by
  obtain ⟨held', lost', h1, -⟩ := loop_calls dem ha (nameless file addr :: rest) cs h true 0
  have e : nameless file addr = file ++ 40 :: ([41, 32, 91] ++ addr ++ [93]) := by simp [nameless]
  have e' : nameless file addr = (file ++ [40]) ++ 41 :: ([32, 91] ++ addr ++ [93]) := by simp [nameless]
  have h2 : loop dem held' lost' (nameless file addr :: rest) = .ok (undefinedText, lost' + 1 + held'.toNat) := by
    have s1 : strchr (nameless file addr) 40 = some file.length := by rw [e]; exact strchr_append _ _ hf.1
    have s2 : strchr (nameless file addr) 41 = some (file.length + 1) := by
      rw [e', strchr_append _ _ (by simp [hf.2])]; simp
    rw [loop, s1]
    simp only [s2, if_true]
  refine ⟨lost' + 1 + held'.toNat, ?_, by omega⟩
  rw [what, backTrace, h1, h2]
  simp only [Outcome.bind_ok, List.length_append, List.length_map, List.length_cons, Json.format, StringFns.cstr_of_no_nul m hm]
  have hn := no_nul_stack dem ha cs h (cs.length + (rest.length + 1))
  rw [lines_eq] at hn ⊢
  rw [StringFns.cstr_of_no_nul]
  · have e1 : ascii "\"" = [34] := by decide
    have e2 : ascii "\"\nCall stack (size " = 34 :: stackText := by decide
    have e3 : ascii "):" = [41, 58] := by decide
    have e4 : ascii "(undefined)" = undefinedText := by decide
    rw [e1, e2, e3, e4, show cs.length + 1 + rest.length = cs.length + (rest.length + 1) by omega]
    simp
  · simp only [List.mem_append, not_or] at hn ⊢
    exact ⟨⟨by simp [hm], by decide⟩, hn.1, hn.2, by decide⟩

-- p() [0x2]
example : nameless [112] [48, 120, 50] = ascii "p() [0x2]" ∧ (40 : UInt8) ∉ ([112] : Bytes) ∧ (41 : UInt8) ∉ ([112] : Bytes) := by decide

/-- C132 is false if a call is in a place that belongs to no file, shown as `[addr]`: a null pointer is written to. -/
theorem no_file_undefined (dem : Demangle) (ha : Answers dem) (msg : Val) (cs : List Call) (h : ∀ c ∈ cs, c.Plain)
    (s : Bytes) (hs : 40 ∉ s) (rest : List Bytes) :
    what dem msg (some (cs.map Call.text ++ s :: rest)) = .ub .nullDeref := by
  obtain ⟨held', lost', h1, -⟩ := loop_calls dem ha (s :: rest) cs h true 0
  rw [what, backTrace, h1, loop, strchr_none s hs]
  rfl

example : (40 : UInt8) ∉ ascii "[0x7f12]" := by decide

/-- C133 for calls of functions with names: an error loses no memory if and only if all the names are mangled ones. Missing for
    the full claim: stacks with a name that is not mangled, as `main`, for which it is false by this theorem, and calls without a name, which always lose
    memory (`nameless_cuts`). -/
theorem error_memory_partial (dem : Demangle) (ha : Answers dem) (msg : Val) (cs : List Call) (h : ∀ c ∈ cs, c.Plain) :
    (∃ t, what dem msg (some (cs.map Call.text)) = .ok (t, 0)) ↔ ∀ c ∈ cs, (dem c.name).1 = 0 := by
  obtain ⟨held', lost', h1, h2, h3, h4⟩ := loop_calls dem ha [] cs h true 0
  rw [List.append_nil] at h1
  rw [what, backTrace, h1]
  simp only [loop, Outcome.bind_ok, Outcome.ok.injEq, Prod.mk.injEq, exists_eq_left']
  constructor
  · rintro rfl
    by_contra hc
    push_neg at hc
    have := h3 hc
    simp at this
  · exact h4

/-- C133 is false for every error thrown below a function whose name is not mangled. -/
theorem error_leaks (dem : Demangle) (ha : Answers dem) (msg : Val) (cs : List Call) (h : ∀ c ∈ cs, c.Plain) (c : Call) (hc : c ∈ cs)
    (hn : (dem c.name).1 ≠ 0) : ∃ t n, what dem msg (some (cs.map Call.text)) = .ok (t, n + 1) := by
  obtain ⟨held', lost', h1, -, h3, -⟩ := loop_calls dem ha [] cs h true 0
  rw [List.append_nil] at h1
  have := h3 ⟨c, hc, hn⟩
  obtain ⟨k, rfl⟩ : ∃ k, lost' = k + 1 := ⟨lost' - 1, by simp at this; omega⟩
  rw [what, backTrace, h1]
  exact ⟨_, k, rfl⟩

-- main
example : ∃ c : Call, c.Plain ∧ ((fun n => (-2, n)) c.name : Int × Bytes).1 ≠ 0 :=
  ⟨⟨[112], [109, 97, 105, 110], [48, 120, 49], [48, 120, 50]⟩, by unfold Call.Plain; decide, by decide⟩

#print axioms error_text_partial
#print axioms nameless_cuts
#print axioms no_file_undefined
#print axioms error_memory_partial
#print axioms error_leaks

end Libube.BacktraceProps

import Verif.Lemmas.Config

/-! # C71: configurations

`n` is the call depth granted to key comparisons (2 suffices), `fuel` the number of lines the INI
reader may process per file, `fill` the value of uninitialised memory. -/

namespace Libube.Config

open Libube Libube.CString Libube.OrderSpec Libube.IniSpec Libube.ConfigSpec

/-- C71 for sections and entries that are ordinary keys and files the INI reader reads as intended
    (C18): every history of creating objects, changing their sections, merging files, storing and
    looking up runs through, and afterwards every lookup by every object gives the value most recently
    stored for its section and the entry, or else the default; without a section, the default.
    That lookups change nothing for later ones is part of this: histories contain lookups, which store
    nothing.
    Missing for the full claim: other keys and other files (see C33 and C18). -/
theorem config_latest_partial (fill : UInt8) (as : List Act) (hp : Proper 0 as) (n fuel : Nat)
    (hn : 2 ≤ n) (hf : ∀ lines, .file lines ∈ as → lines.length < fuel) :
    ∃ st, runAll fill n fuel .start (as.map toCall) = .ok st ∧
      ∀ (o : Nat) (sec entry : Val), (sections [] as)[o]? = some sec → IsKey entry →
        ∃ st',
          (∀ v, Latest as sec entry v → config n st o entry = .ok (st', v) ∧
            ∀ (T : Type) (cast : Val → Outcome T) (t dflt : T), cast v = .ok t →
              configT cast n st o entry dflt = .ok (st', t)) ∧
          ((∀ v, ¬ Latest as sec entry v) → config n st o entry = .ok (st', .nil) ∧
            ∀ (T : Type) (cast : Val → Outcome T) (dflt : T),
              configT cast n st o entry dflt = .ok (st', dflt)) := by
  obtain ⟨n, rfl⟩ : ∃ m, n = m + 2 := ⟨n - 2, by omega⟩
  obtain ⟨st, e, h, hs⟩ := run_all fill n fuel as hp hf
  refine ⟨st, e, ?_⟩
  intro o sec entry ho he
  rw [← h.secs] at ho
  obtain ⟨ps, r, e', -, hr0, hr⟩ := lookup_spec (n := n) h hs o sec ho entry he
  refine ⟨⟨ps, st.secs⟩, ?_, ?_⟩
  · intro v hv
    have hk : IsKey sec := by
      rcases hs sec (List.mem_of_getElem? ho) with rfl | hk
      · obtain ⟨a, x, b, -, hst, -⟩ := hv
        cases hst with
        | set _ s _ _ _ _ _ h2 _ => cases s <;> simp [SameKey] at h2
      · exact hk
    have := (hr hk v).2 hv
    subst this
    refine ⟨by simp only [config, e', Outcome.bind_ok], ?_⟩
    intro T cast t dflt hc
    simp only [configT, e', Outcome.bind_ok, hc]
  · intro hv
    have : r = none := by
      rcases hs sec (List.mem_of_getElem? ho) with h0 | hk
      · exact hr0 h0
      · cases r with
        | none => rfl
        | some v => exact (hv v ((hr hk v).1 rfl)).elim
    subst this
    refine ⟨by simp only [config, e', Outcome.bind_ok], ?_⟩
    intro T cast dflt
    simp only [configT, e', Outcome.bind_ok]

-- two objects for section "s"; the file "[s]\nk=1\n"; the second stores 7, the first looks it up
example :
    let as : List Act := [.create (.chars [115]), .create .nil, .file [.head [] [115] [],
      .entry [] [107] [] 61 [] [49] []], .select 1 (.chars [115]), .look 0 (.chars [107]),
      .set 1 (.chars [107]) (.int 7#32), .look 1 (.chars [106])]
    Proper 0 as ∧ (sections [] as)[0]? = some (.chars [115]) ∧
    Latest as (.chars [115]) (.chars [107]) (.int 7#32) ∧
    ∀ v, ¬ Latest as (.chars [115]) (.chars [106]) v := by
  intro as
  refine ⟨?_, rfl, ?_, ?_⟩
  · simp [as, Proper, IsSection, IsKey, Item.Valid, Item.OneSeparator, Item.text, Blank, Trimmed,
      StringSpec.IsSpace]
  · refine ⟨as.take 5, .set 1 (.chars [107]) (.int 7#32), [.look 1 (.chars [106])], rfl,
      .set 1 (.chars [115]) _ _ _ _ rfl rfl rfl, ?_⟩
    intro b1 y b2 w hb
    rcases b1 with _ | ⟨z, b1⟩
    · simp only [List.nil_append, List.cons.injEq] at hb
      rw [← hb.1]
      rintro ⟨⟩
    · simp at hb
  · rintro v ⟨a, x, b, h, hst, -⟩
    have hx : x ∈ as := by rw [h]; simp
    generalize sections [] a = ss at hst
    simp only [as, List.mem_cons, List.not_mem_nil, or_false] at hx
    rcases hx with rfl | rfl | rfl | rfl | rfl | rfl | rfl
    all_goals (try (cases hst; done))
    · cases hst with
      | file _ s k w hl =>
        obtain ⟨a, i, b, hi, -, ⟨pre, gap, sep, gap', post, hb⟩, -⟩ := hl
        have hm : i ∈ [Item.head [] [115] [], Item.entry [] [107] [] 61 [] [49] []] := by
          rw [hi]; simp
        simp only [List.mem_cons, List.not_mem_nil, or_false] at hm
        rcases hm with rfl | rfl <;> simp at hb
    · cases hst with
      | set _ s _ _ _ _ _ _ h3 => simp [SameKey] at h3

-- two stores by the same object: the later one counts
example :
    let as : List Act := [.create (.int 1#32), .set 0 (.int 0#32) (.int 3#32),
      .set 0 (.int 0#32) (.int 4#32)]
    Proper 0 as ∧ Latest as (.int 1#32) (.int 0#32) (.int 4#32) := by
  refine ⟨by simp [Proper, IsSection, IsKey], [.create (.int 1#32), .set 0 (.int 0#32) (.int 3#32)],
    .set 0 (.int 0#32) (.int 4#32), [], rfl,
    .set 0 (.int 1#32) _ _ _ _ rfl rfl rfl, ?_⟩
  intro b1 y b2 w hb
  simp at hb

/-- Without a section nothing is stored: the value does not even reach lookups by the same object.
    (Not covered by C71, which speaks of pairs of section and entry.) -/
theorem no_section_not_stored (n : Nat) (st : State) (o : Nat) (entry val : Val)
    (ho : st.secs[o]? = some .nil) :
    configSet n st o entry val = .ok st ∧ config n st o entry = .ok (st, .nil) := by
  constructor
  · simp [configSet, State.sec, ho, Val.defined]
  · simp [config, lookup, State.sec, ho, section_, mapRef, Val.defined, find]

example : (⟨[], [.chars [115], .nil]⟩ : State).secs[1]? = some Val.nil := rfl

#print axioms config_latest_partial
#print axioms no_section_not_stored

end Libube.Config

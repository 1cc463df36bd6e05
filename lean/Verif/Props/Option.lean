import Verif.Lemmas.Option

/-! # C72, C96: command line options

`n` is the call depth granted to key comparisons (2 suffices), `fuel` bounds the calls of `getopt`. -/

namespace Libube.Option

open Libube Libube.CString Libube.OptionSpec

theorem events_length (i : Item) : (events i).length ≤ (i.words.flatMap id).length := by
  cases i <;> simp [events, Item.words] <;> omega

theorem events_length_all (is : List Item) :
    (is.flatMap events).length ≤ ((is.flatMap Item.words).flatMap id).length := by
  induction is with
  | nil => simp
  | cons i is ih =>
    have := events_length i
    simp only [List.flatMap_cons, List.length_append, List.flatMap_append]
    omega

/-- the map that `parse` returns: exactly the registered options, each once, with their values -/
theorem values_map {regs : List (UInt8 × Val)} (hr : Regs regs) {is : List Item} {m : List (Val × Val)}
    (h : Inv m (values regs (is.flatMap events))) :
    (∀ c d, (c, d) ∈ regs → ∃ v, (Val.char c, v) ∈ m ∧ Value is c d v) ∧
    (∀ p ∈ m, ∃ r ∈ regs, p.1 = .char r.1) ∧ (m.map Prod.fst).Nodup := by
  refine ⟨?_, ?_, ?_⟩
  · intro c d hd
    refine ⟨_, (h.mem c _).2 ?_, value_spec is c d⟩
    rw [values, defaults_mem hr.2 hd]
    rfl
  · intro p hp
    obtain ⟨c, hc⟩ := h.wf.keys p hp
    obtain ⟨p1, p2⟩ := p
    simp only at hc
    subst hc
    have := (h.mem c p2).1 hp
    unfold values at this
    cases hd : defaults regs c with
    | none => rw [hd] at this; cases this
    | some d => exact ⟨_, mem_defaults hd, rfl⟩
  · unfold List.Nodup
    rw [List.pairwise_map]
    refine h.wf.sorted.imp ?_
    intro a b hab he
    rw [he] at hab
    exact lt_irrefl _ hab

/-- The arguments after a double hyphen, with the hyphens. -/
def tailWords : Option (List Bytes) → List Bytes
  | none => []
  | some rest => [45, 45] :: rest

/-- The arguments after a double hyphen. -/
def tailOperands : Option (List Bytes) → List Bytes
  | none => []
  | some rest => rest

/-- C72 with the `getopt` of the GNU library, for command lines made of registered options, their
    arguments and operands in any order, in which no option without argument is given twice: `parse`
    returns exactly the registered options, those with a default with the last argument given or else
    the default, those without with 1 or nil; and `args` then gives the operands in order, followed by
    what stands after a double hyphen.
    Missing for the full claim: options without argument given twice, where it is false
    (`repeated_flag_throws`), and command lines with other options, which end the program (C96). -/
theorem options_partial (regs : List (UInt8 × Val)) (hr : Regs regs) (is : List Item)
    (hv : ∀ i ∈ is, i.Valid regs) (hn : (is.flatMap Item.given).Nodup) (tail : Option (List Bytes))
    (n fuel : Nat) (hn2 : 2 ≤ n) (hf : ((is.flatMap Item.words).flatMap id).length < fuel) :
    ∃ o m s, registerAll n .start regs = .ok o ∧
      parse true n fuel o (is.flatMap Item.words ++ tailWords tail) = .ok (.opts m s) ∧
      (∀ c d, (c, d) ∈ regs → ∃ v, (Val.char c, v) ∈ m ∧ Value is c d v) ∧
      (∀ p ∈ m, ∃ r ∈ regs, p.1 = .char r.1) ∧ (m.map Prod.fst).Nodup ∧
      args s = GetLine.pushed (is.flatMap Item.operands ++ tailOperands tail) := by
  obtain ⟨n, rfl⟩ : ∃ m, n = m + 2 := ⟨n - 2, by omega⟩
  obtain ⟨o, m, e1, h, e2⟩ := parse_items true n hr is hv (.inl rfl) hn
  have hlen := events_length_all is
  obtain ⟨f, rfl⟩ : ∃ f, fuel = (f + 1) + (is.flatMap events).length :=
    ⟨fuel - (is.flatMap events).length - 1, by omega⟩
  obtain ⟨h1, h2, h3⟩ := values_map hr h
  refine ⟨o, m, ⟨is.flatMap Item.operands, [], tailOperands tail⟩, e1, ?_, h1, h2, h3, rfl⟩
  rw [e2]
  cases tail with
  | none => rfl
  | some rest => rfl

-- "-v in -ofile -q -- -x" with v, q without argument and o with default 0
example :
    let regs : List (UInt8 × Val) := [(118, .nil), (111, .int 0#32), (113, .nil)]
    let is : List Item := [.flags 118 [], .operand [105, 110], .attached [] 111 [102, 105, 108, 101],
      .separate [113] 111 [45]]
    Regs regs ∧ (∀ i ∈ is, i.Valid regs) ∧ (is.flatMap Item.given).Nodup ∧
    Value is 111 (.int 0#32) (.chars [45]) ∧ Value is 118 .nil (.int 1#32) ∧
    is.flatMap Item.words ++ tailWords (some [[45, 120]]) = [[45, 118], [105, 110],
      [45, 111, 102, 105, 108, 101], [45, 113, 111], [45], [45, 45], [45, 120]] := by
  refine ⟨⟨by simp; decide, by decide⟩, by simp [Item.Valid], by decide, ?_, ?_, rfl⟩
  · exact .arg _ _ (by simp) ⟨[.flags 118 [], .operand [105, 110],
      .attached [] 111 [102, 105, 108, 101]], .separate [113] 111 [45], [], rfl, ⟨rfl, rfl⟩, by simp⟩
  · exact .set ⟨.flags 118 [], by simp, by simp [Item.given]⟩

/-- C72 with a `getopt` that stops at the first operand, as POSIX has it: options up to there, and
    `args` gives that operand and everything after it. -/
theorem options_posix_partial (regs : List (UInt8 × Val)) (hr : Regs regs) (is : List Item)
    (hv : ∀ i ∈ is, i.Valid regs ∧ i.operands = []) (hn : (is.flatMap Item.given).Nodup)
    (rest : List Bytes) (hrest : ∀ s, rest.head? = some s → s.head? ≠ some 45 ∨ s = [45])
    (n fuel : Nat) (hn2 : 2 ≤ n) (hf : ((is.flatMap Item.words).flatMap id).length < fuel) :
    ∃ o m s, registerAll n .start regs = .ok o ∧
      parse false n fuel o (is.flatMap Item.words ++ rest) = .ok (.opts m s) ∧
      (∀ c d, (c, d) ∈ regs → ∃ v, (Val.char c, v) ∈ m ∧ Value is c d v) ∧
      (∀ p ∈ m, ∃ r ∈ regs, p.1 = .char r.1) ∧ (m.map Prod.fst).Nodup ∧
      args s = GetLine.pushed rest := by
  obtain ⟨n, rfl⟩ : ∃ m, n = m + 2 := ⟨n - 2, by omega⟩
  obtain ⟨o, m, e1, h, e2⟩ := parse_items false n hr is (fun i hi => (hv i hi).1)
    (.inr fun i hi => (hv i hi).2) hn
  have hlen := events_length_all is
  obtain ⟨f, rfl⟩ : ∃ f, fuel = (f + 1) + (is.flatMap events).length :=
    ⟨fuel - (is.flatMap events).length - 1, by omega⟩
  obtain ⟨h1, h2, h3⟩ := values_map hr h
  have hz : is.flatMap Item.operands = [] := by
    rw [List.flatMap_eq_nil_iff]; exact fun i hi => (hv i hi).2
  refine ⟨o, m, ⟨[], [], rest⟩, e1, ?_, h1, h2, h3, rfl⟩
  rw [e2, hz]
  match rest, hrest with
  | [], _ => rfl
  | s :: rest, hrest =>
    have : scan false (optString regs) [] (s :: rest) = (.done, ⟨[], [], s :: rest⟩) := by
      rcases hrest s rfl with hs | rfl
      · match s, hs with
        | [], _ => rfl
        | c :: cs, hs =>
          have hc : c ≠ 45 := by simpa using hs
          rw [scan, if_neg (by intro h; simp only [List.cons.injEq] at h; exact hc h.1)]
          · rfl
          · intro x xs h; simp only [List.cons.injEq] at h; exact absurd h.1 hc
      · rfl
    simp only [parseLoop, getopt, this]

-- "-v in -v"
example : Regs [(118, .nil)] ∧ (Item.flags 118 []).Valid [(118, .nil)] ∧
    (Item.flags 118 []).operands = [] ∧ ([Item.flags 118 []].flatMap Item.given).Nodup :=
  ⟨⟨by simp; decide, by decide⟩, by simp [Item.Valid], rfl, by decide⟩

/-- C72 fails for every option without argument given twice, whatever stands around: the first one
    leaves the value 1, because of which the second is taken to have an argument, and `parse` throws. -/
theorem repeated_flag_throws (regs : List (UInt8 × Val)) (hr : Regs regs) (is : List Item)
    (hv : ∀ i ∈ is, i.Valid regs) (hn : (is.flatMap Item.given).Nodup) (f : UInt8)
    (hf : f ∈ is.flatMap Item.given) (cs : Bytes) (rest : List Bytes)
    (n fuel : Nat) (hn2 : 2 ≤ n) (hfuel : ((is.flatMap Item.words).flatMap id).length < fuel) :
    ∃ o, registerAll n .start regs = .ok o ∧
      parse true n fuel o (is.flatMap Item.words ++ (45 :: f :: cs) :: rest) =
        .thrown (.error "optarg is null") := by
  obtain ⟨n, rfl⟩ : ∃ m, n = m + 2 := ⟨n - 2, by omega⟩
  obtain ⟨o, m, e1, h, e2⟩ := parse_items true n hr is hv (.inl rfl) hn
  have hlen := events_length_all is
  obtain ⟨k, rfl⟩ : ∃ f, fuel = (f + 1) + (is.flatMap events).length :=
    ⟨fuel - (is.flatMap events).length - 1, by omega⟩
  have hmem : (f, none) ∈ is.flatMap events := (mem_given is f).2 (by simpa using hf)
  have hreg : (f, Val.nil) ∈ regs := by
    obtain ⟨i, hi, he⟩ := List.mem_flatMap.1 hmem
    exact events_fit i (hv i hi) _ he
  refine ⟨o, e1, ?_⟩
  rw [e2, loop_enter true _ _ f cs (letter_ne (hr.1 _ hreg)).2]
  have hval : values regs (is.flatMap events) f = some (.int 1#32) := by
    rw [values, defaults_mem hr.2 hreg]
    simp only [Option.map_some, valueOf, hmem, if_true]
  have hs := store_null n h f hval (by simp)
  simp only [parseLoop, getopt, word, known_flag hr hreg, hs]
  rw [if_neg (letter_not_question (hr.1 _ hreg))]
  rfl

example : Regs [(118, .nil)] ∧ (Item.flags 118 []).Valid [(118, .nil)] ∧
    (118 : UInt8) ∈ [Item.flags 118 []].flatMap Item.given :=
  ⟨⟨by simp; decide, by decide⟩, by simp [Item.Valid], by decide⟩

/-- C96, unknown options: the program ends (with status 0, after the usage text) at the first option
    that is not registered, whatever stands before it in order and whatever comes after. -/
theorem unknown_option_exits (regs : List (UInt8 × Val)) (hr : Regs regs) (is : List Item)
    (hv : ∀ i ∈ is, i.Valid regs) (fs : List UInt8) (hfs : ∀ c ∈ fs, (c, Val.nil) ∈ regs)
    (hn : (is.flatMap Item.given ++ fs).Nodup) (c : UInt8) (hc : ∀ d, (c, d) ∉ regs) (cs : Bytes)
    (hne : fs = [] → c = 45 → cs ≠ []) (rest : List Bytes)
    (n fuel : Nat) (hn2 : 2 ≤ n)
    (hfuel : ((is.flatMap Item.words).flatMap id).length + fs.length < fuel) :
    ∃ o, registerAll n .start regs = .ok o ∧
      parse true n fuel o (is.flatMap Item.words ++ (45 :: (fs ++ c :: cs)) :: rest) = .ok .exited := by
  obtain ⟨n, rfl⟩ : ∃ m, n = m + 2 := ⟨n - 2, by omega⟩
  obtain ⟨o, m, e1, h, e2⟩ := parse_items true n hr is hv (.inl rfl) (List.nodup_append.1 hn).1
  have hlen := events_length_all is
  obtain ⟨k, rfl⟩ : ∃ f, fuel = (f + 1 + fs.length) + (is.flatMap events).length :=
    ⟨fuel - (is.flatMap events).length - fs.length - 1, by omega⟩
  have hk : (if c = 58 then none else known c (optString regs)) = none := by
    split
    · rfl
    · rename_i h58; exact known_none regs c h58 hc
  refine ⟨o, e1, ?_⟩
  rw [e2]
  have henter : parseLoop true (n + 2) (optString regs) (k + 1 + fs.length) m
        ⟨is.flatMap Item.operands, [], (45 :: (fs ++ c :: cs)) :: rest⟩ =
      parseLoop true (n + 2) (optString regs) (k + 1 + fs.length) m
        ⟨is.flatMap Item.operands, fs ++ c :: cs, rest⟩ := by
    cases fs with
    | cons f fs => exact loop_enter true _ _ f _ (letter_ne (hr.1 _ (hfs f (by simp)))).2 _ _ _ _
    | nil =>
      simp only [List.nil_append, List.length_nil, Nat.add_zero, parseLoop, getopt, scan]
      rw [if_neg]
      intro hx
      simp only [List.cons.injEq, true_and] at hx
      exact hne rfl hx.1 hx.2
  obtain ⟨m', e3, -⟩ := storeAll_spec n hr (fs.map fun c => (c, none)) (is.flatMap events) m
    (by
      intro e he
      obtain ⟨c, hc, rfl⟩ := List.mem_map.1 he
      exact hfs c hc)
    (by
      have : flagsOf (is.flatMap events ++ fs.map fun c => (c, none)) = is.flatMap Item.given ++ fs := by
        rw [← flagsOf_items]
        simp [flagsOf]
      rw [this]; exact hn) h
  rw [henter, loop_flags true _ hr fs hfs, e3]
  show parseLoop true (n + 2) (optString regs) (k + 1) m' ⟨_, c :: cs, rest⟩ = _
  simp only [parseLoop, getopt, word, hk]

-- "-vx" with only v registered
example : Regs [(118, .nil)] ∧ (∀ c ∈ ([118] : Bytes), (c, Val.nil) ∈ [((118 : UInt8), Val.nil)]) ∧
    ∀ d, ((120 : UInt8), d) ∉ [((118 : UInt8), Val.nil)] :=
  ⟨⟨by simp; decide, by decide⟩, by simp, by simp⟩

/-- C96, missing arguments: an option with argument at the very end of the command line, without
    argument, ends the program in the same way. -/
theorem missing_argument_exits (regs : List (UInt8 × Val)) (hr : Regs regs) (is : List Item)
    (hv : ∀ i ∈ is, i.Valid regs) (hn : (is.flatMap Item.given).Nodup) (c : UInt8) (d : Val)
    (hd : d ≠ .nil) (hc : (c, d) ∈ regs) (n fuel : Nat) (hn2 : 2 ≤ n)
    (hfuel : ((is.flatMap Item.words).flatMap id).length < fuel) :
    ∃ o, registerAll n .start regs = .ok o ∧
      parse true n fuel o (is.flatMap Item.words ++ [[45, c]]) = .ok .exited := by
  obtain ⟨n, rfl⟩ : ∃ m, n = m + 2 := ⟨n - 2, by omega⟩
  obtain ⟨o, m, e1, h, e2⟩ := parse_items true n hr is hv (.inl rfl) hn
  have hlen := events_length_all is
  obtain ⟨k, rfl⟩ : ∃ f, fuel = (f + 1) + (is.flatMap events).length :=
    ⟨fuel - (is.flatMap events).length - 1, by omega⟩
  refine ⟨o, e1, ?_⟩
  rw [e2, loop_enter true _ _ c [] (letter_ne (hr.1 _ hc)).2]
  simp only [parseLoop, getopt, word, known_arg hr hd hc]

example : Regs [(111, .int 0#32)] ∧ Val.int 0#32 ≠ .nil ∧ ((111 : UInt8), Val.int 0#32) ∈ [((111 : UInt8), Val.int 0#32)] :=
  ⟨⟨by simp; decide, by decide⟩, by simp, by simp⟩

#print axioms options_partial
#print axioms options_posix_partial
#print axioms repeated_flag_throws
#print axioms unknown_option_exits
#print axioms missing_argument_exits

end Libube.Option

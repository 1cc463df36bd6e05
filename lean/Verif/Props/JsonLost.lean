import Verif.Props.Json

/-! # C20: what is lost on the way through text

Exactly which strings survive, and what happens to arrays of vars that begin with an integer but
hold something else as well.  Together with `quote_lost`, `singleton_unwrapped` and
`empty_array_lost` this shows that the conditions of `Good` cannot be weakened. -/

namespace Libube.Json

open Libube Libube.CString Libube.JsonSpec

/-- What is read of a string up to the last quotation mark of the text is the whole of it, or
    shorter. -/
theorem strLoop_short : ∀ (t acc y r : Bytes), strLoop acc (t ++ [34]) = .ok (y, r) →
    (y = acc ++ t ∧ r = [] ∧ 34 ∉ t ∧ 92 ∉ t) ∨ y.length < acc.length + t.length
  | [], acc, y, r, h => by
    rw [List.nil_append, strLoop.eq_def] at h
    simp only [if_true, Outcome.ok.injEq, Prod.mk.injEq] at h
    exact Or.inl ⟨by simp [h.1], h.2.symm, by simp, by simp⟩
  | c :: t, acc, y, r, h => by
    rw [List.cons_append, strLoop.eq_def] at h
    by_cases h1 : c = 34
    · simp only [if_pos h1, Outcome.ok.injEq, Prod.mk.injEq] at h
      refine Or.inr ?_
      rw [← h.1]; simp
    by_cases h2 : c = 92
    · simp only [if_neg h1, if_pos h2] at h
      match t with
      | [] =>
        simp only [List.nil_append] at h
        rw [strLoop.eq_def] at h
        simp at h
      | d :: t =>
        by_cases h3 : d = 34
        · subst h3
          simp only [List.cons_append] at h
          refine Or.inr ?_
          rcases strLoop_short t _ y r h with ⟨hy, -⟩ | hy
          · rw [hy]; simp
          · simp only [List.length_append, List.length_cons, List.length_nil] at hy ⊢; omega
        · exfalso
          simp only [List.cons_append] at h
          split at h
          · rename_i he; simp only [List.cons.injEq] at he; exact h3 he.1
          · simp at h
    · simp only [if_neg h1, if_neg h2] at h
      rcases strLoop_short t _ y r h with ⟨hy, hr, ha, hb⟩ | hy
      · exact Or.inl ⟨by rw [hy]; simp, hr, by simp [ha, Ne.symm h1], by simp [hb, Ne.symm h2]⟩
      · refine Or.inr ?_
        simp only [List.length_append, List.length_cons, List.length_nil] at hy ⊢; omega

/-- C20 for strings, completely: a string comes back from its text, with or without something left
    over, if and only if it contains no NUL, no quotation mark and no backslash. -/
theorem string_round_trip_iff (s : Bytes) (n : Nat) (hn : 2 ≤ n) (fuel : Nat)
    (hf : 2 * (format 0 (.chars s)).length + 1 ≤ fuel) :
    (∃ w r, parse n fuel (format 0 (.chars s)) = .ok (w, r) ∧ JsonSpec.Same (.chars s) w) ↔ Clean s := by
  refine ⟨?_, fun h => ?_⟩
  · rintro ⟨w, r, h, hs⟩
    cases hs
    rw [format] at h
    obtain ⟨fuel, rfl⟩ : ∃ m, fuel = m + 1 := ⟨fuel - 1, by omega⟩
    unfold parse at h
    rw [doValue] at h
    simp only [List.cons_append, skip_head (show isspace 34 = false by decide), doString] at h
    cases hl : strLoop [] (cstr s ++ [34]) with
    | ok q =>
      obtain ⟨y, q⟩ := q
      rw [hl] at h
      simp only [Outcome.bind_ok, Outcome.ok.injEq, Prod.mk.injEq, Val.chars.injEq] at h
      obtain ⟨rfl, -⟩ := h
      have hc : (cstr y).length ≤ y.length := (List.takeWhile_sublist _).length_le
      rcases strLoop_short (cstr y) [] y q hl with ⟨hy, -, ha, hb⟩ | hy
      · rw [List.nil_append] at hy
        rw [← hy] at ha hb
        exact ⟨by rw [hy]; exact StringFns.cstr_no_nul y, ha, hb⟩
      · simp only [List.length_nil] at hy; omega
    | _ => rw [hl] at h; simp at h
  · obtain ⟨w, h1, h2⟩ := json_round_trip_partial (.chars s) (.chars s h) n hn fuel hf
    exact ⟨w, [], h1, h2⟩

-- both sides occur
example : Clean [97, 98] ∧ ¬ Clean [97, 92] := by decide

theorem EndsA.stop {n} {s : Bytes} {a x s1} (hx : Runs n s x s1) (hp : ∀ a', push a x ≠ .ok a')
    (hh : ∃ c r, Json.skip s = c :: r ∧ c ≠ 93 ∧ c ≠ 44) :
    ∃ o, EndsA n ⟨s, false⟩ a o ∧ ∀ r, o ≠ .ok r := by
  obtain ⟨f, hf⟩ := hx.skip (t := Json.skip s) (skip_skip s)
  obtain ⟨c, r, hc, hc1, hc2⟩ := hh
  have key : arrLoop n (f + 1) ⟨s, false⟩ a = (push a x).bind (fun a' => arrLoop n f s1 a') := by
    rw [arrLoop]
    simp only [Bool.false_eq_true, if_false]
    rw [hc] at hf ⊢
    split
    · rename_i h; simp only [List.cons.injEq] at h; exact absurd h.1 hc1
    · rename_i h; simp only [List.cons.injEq] at h; exact absurd h.1 hc2
    · rw [hf]
      simp only [Outcome.bind_ok]
      rfl
  have hcalm := push_calm a x
  cases hq : push a x with
  | ok a' => exact absurd hq (hp a')
  | thrown e => exact ⟨.thrown e, ⟨⟨f + 1, by rw [key, hq]; rfl⟩, by simp⟩, by simp⟩
  | ub e => exact ⟨.ub e, ⟨⟨f + 1, by rw [key, hq]; rfl⟩, by simp⟩, by simp⟩
  | abort => exact ⟨.abort, ⟨⟨f + 1, by rw [key, hq]; rfl⟩, by simp⟩, by simp⟩
  | diverge => rw [hq] at hcalm; exact absurd rfl hcalm.2

/-- The elements of an array, when pushing them fails. -/
theorem items_fail (n ind : Nat) (t : Bytes) (xs ws : List Val)
    (h : List.Forall₂ (fun v w => Trips v w ∧ Starts v) xs ws) (acc : Val)
    (hp : ∀ final, ws.foldlM push acc ≠ .ok final) :
    ∃ o, EndsA (n + 2) ⟨formatItems ind xs ++ (spaces ind ++ 93 :: t), false⟩ acc o ∧ ∀ r, o ≠ .ok r := by
  induction h generalizing acc with
  | nil => exact absurd rfl (hp acc)
  | @cons x w xs ws hx _ ih =>
    obtain ⟨sep, hsep, he⟩ := formatItems_cons ind x xs
    rw [he, List.append_assoc]
    obtain ⟨c, r, hc, h1, h2, h3⟩ := hx.2 (ind + 2)
    by_cases hq : ∃ acc', push acc w = .ok acc'
    · obtain ⟨acc', hq⟩ := hq
      obtain ⟨o, ih, ho⟩ := ih acc' (by simpa only [List.foldlM_cons, hq, Outcome.bind_ok] using hp)
      refine ⟨o, ?_, ho⟩
      generalize formatItems ind xs ++ (spaces ind ++ 93 :: t) = rest at ih ⊢
      have key : ∀ d u, (d = 44 ∨ d = 10) → EndsA (n + 2) ⟨u, false⟩ acc' o →
          EndsA (n + 2) ⟨spaces (ind + 2) ++ (format (ind + 2) x ++ d :: u), false⟩ acc o := by
        intro d u hd hu
        obtain ⟨s1, hr, ha⟩ := hx.1 n (ind + 2) (d :: u) (Or.inr ⟨u, by rcases hd with rfl | rfl <;> simp⟩)
        have hu' : EndsA (n + 2) s1 acc' o := by
          rcases ha with rfl | rfl
          · rcases hd with rfl | rfl
            · exact hu.comma
            · exact hu.skip (skip_cons (by decide) u)
          · exact hu
        have := EndsA.value hr hq hu' ⟨c, r ++ d :: u, by
          rw [hc, List.cons_append, skip_head h1], h2, h3⟩
        exact this.skip (skip_blank _ _ (spaces_blank _))
      rcases hsep with rfl | rfl
      · simpa using key 10 rest (Or.inr rfl) ih
      · simpa using key 44 (10 :: rest) (Or.inl rfl) (ih.skip (skip_cons (by decide) rest))
    · push_neg at hq
      have key : ∀ d u, (d = 44 ∨ d = 10) →
          ∃ o, EndsA (n + 2) ⟨spaces (ind + 2) ++ (format (ind + 2) x ++ d :: u), false⟩ acc o ∧ ∀ r, o ≠ .ok r := by
        intro d u hd
        obtain ⟨s1, hr, ha⟩ := hx.1 n (ind + 2) (d :: u) (Or.inr ⟨u, by rcases hd with rfl | rfl <;> simp⟩)
        obtain ⟨o, h4, h5⟩ := EndsA.stop hr hq ⟨c, r ++ d :: u, by
          rw [hc, List.cons_append, skip_head h1], h2, h3⟩
        exact ⟨o, h4.skip (skip_blank _ _ (spaces_blank _)), h5⟩
      rcases hsep with rfl | rfl
      · simpa using key 10 _ (Or.inr rfl)
      · simpa using key 44 _ (Or.inl rfl)

/-- Once integers have been pushed there are only integers. -/
theorem push_from_longs (ws : List Val) (acc final : Val) (ha : (∃ l, acc = .long l) ∨ ∃ ls, acc = .longs ls)
    (hp : ws.foldlM push acc = .ok final) : (∃ l, final = .long l) ∨ ∃ ls, final = .longs ls := by
  induction ws generalizing acc with
  | nil =>
    simp only [List.foldlM_nil, Outcome.pure_eq, Outcome.ok.injEq] at hp
    exact hp ▸ ha
  | cons w ws ih =>
    rw [List.foldlM_cons] at hp
    cases hq : push acc w with
    | ok acc' =>
      rw [hq, Outcome.bind_ok] at hp
      refine ih acc' ?_ hp
      rcases ha with ⟨l, rfl⟩ | ⟨ls, rfl⟩
      · cases w <;> simp only [push, reduceCtorEq, Outcome.ok.injEq] at hq
        exact Or.inr ⟨_, hq.symm⟩
      · simp only [push] at hq
        cases hc : castLong w with
        | ok y => rw [hc] at hq; simp only [Outcome.bind_ok, Outcome.ok.injEq] at hq; exact Or.inr ⟨_, hq.symm⟩
        | _ => rw [hc] at hq; simp at hq
    | _ => rw [hq] at hp; simp at hp

/-- C20 is false for every array of vars that begins with an integer but holds something other
    than integers as well: whatever its text is read as, it is not the same data. -/
theorem mixed_array_lost (x : Val) (xs : List Val) (hx : IsInteger x) (hg : ∀ y ∈ xs, Good y)
    (hm : ∃ y ∈ xs, ¬ IsInteger y) (n : Nat) (hn : 2 ≤ n) (fuel : Nat)
    (hf : 2 * (format 0 (.arr (x :: xs))).length + 1 ≤ fuel) :
    ¬ ∃ w r, parse n fuel (format 0 (.arr (x :: xs))) = .ok (w, r) ∧ JsonSpec.Same (.arr (x :: xs)) w := by
  rintro ⟨w, r, hw, hs⟩
  obtain ⟨n, rfl⟩ : ∃ m, n = m + 2 := ⟨n - 2, by omega⟩
  have hgx : Good x := by
    cases x <;> first | exact .int _ | exact .long _ | exact hx.elim
  have hall : ∀ y ∈ x :: xs, Good y := by
    intro y hy
    rcases List.mem_cons.1 hy with rfl | hy
    · exact hgx
    · exact hg y hy
  obtain ⟨ws, hws⟩ : ∃ ws, List.Forall₂ (fun v w => JsonSpec.Same v w ∧ Trips v w ∧ Starts v) (x :: xs) ws := by
    generalize x :: xs = l at hall
    clear hf hw hs
    induction l with
    | nil => exact ⟨[], .nil⟩
    | cons y l ih =>
      obtain ⟨v, h1, h2, h3, -⟩ := good_trips (hall y (by simp))
      obtain ⟨vs, h4⟩ := ih (fun z hz => hall z (by simp [hz]))
      exact ⟨v :: vs, .cons ⟨h1, h2, h3⟩ h4⟩
  have hws' : List.Forall₂ (fun v w => Trips v w ∧ Starts v) (x :: xs) ws := hws.imp fun _ _ h => h.2
  by_cases hp : ∃ final, ws.foldlM push .nil = .ok final
  · obtain ⟨final, hp⟩ := hp
    obtain ⟨s', h3, h4⟩ := trips_arr _ ws hws' final hp n 0 [] (Or.inl rfl)
    rw [List.append_nil] at h3
    rw [parse_of_runs h3 fuel hf, Outcome.ok.injEq, Prod.mk.injEq] at hw
    obtain ⟨rfl, -⟩ := hw
    cases hws with
    | @cons _ v _ vs h1 h2 =>
      have hv : ∃ l, v = .long l := by
        have h1 := h1.1
        cases x <;> first | exact hx.elim | (cases h1; exact ⟨_, rfl⟩)
      obtain ⟨l, rfl⟩ := hv
      rw [List.foldlM_cons, show push .nil (.long l) = .ok (.long l) by simp [push, Val.type], Outcome.bind_ok] at hp
      rcases push_from_longs vs (.long l) final (Or.inl ⟨l, rfl⟩) hp with ⟨k, rfl⟩ | ⟨ls, rfl⟩
      · cases hs
      · cases hs with
        | longs _ _ h =>
          obtain ⟨y, hy, hny⟩ := hm
          have : ∀ (l : List Val) (ls : List (BitVec 64)), List.Forall₂ JsonSpec.Same l (ls.map Val.long) →
              ∀ y ∈ l, IsInteger y := by
            intro l
            induction l with
            | nil => simp
            | cons z l ih =>
              intro ls h y hy
              cases ls with
              | nil => cases h
              | cons k ls =>
                rw [List.map_cons] at h
                cases h with
                | cons h1 h2 =>
                  rcases List.mem_cons.1 hy with rfl | hy
                  · cases h1 <;> trivial
                  · exact ih ls h2 y hy
          exact hny (this _ ls h y (by simp [hy]))
  · push_neg at hp
    obtain ⟨o, h1, h2⟩ := items_fail n 0 [] (x :: xs) ws hws' .nil hp
    have h3 := h1.skip (t := 10 :: (formatItems 0 (x :: xs) ++ (spaces 0 ++ [93]))) (skip_cons (by decide) _)
    have he : format 0 (.arr (x :: xs)) = 91 :: 10 :: (formatItems 0 (x :: xs) ++ (spaces 0 ++ [93])) := by
      rw [format]; simp
    rw [he] at hf hw
    rw [parse_of_ends h3 fuel hf] at hw
    cases o with
    | ok r => exact h2 r rfl
    | _ => simp at hw

-- [1, "a"]
example : IsInteger (.int 1) ∧ (∀ y ∈ [Val.chars [97]], Good y) ∧ ∃ y ∈ [Val.chars [97]], ¬ IsInteger y := by
  refine ⟨trivial, ?_, .chars [97], by simp, by simp [IsInteger]⟩
  intro y hy
  rw [List.mem_singleton] at hy
  exact hy ▸ .chars _ (by decide)

/-- What becomes of a numeral held as a string behind two or more integers: it is read back as the
    number, without notice. -/
theorem numeral_string_absorbed (a b : BitVec 64) (ls : List (BitVec 64)) (t : Bytes) (i : Int) (h : Numeral t i)
    (hi : JsonSpec.Fits i) (n : Nat) (hn : 2 ≤ n) (fuel : Nat)
    (hf : 2 * (format 0 (.arr ((a :: b :: ls).map Val.long ++ [.chars t]))).length + 1 ≤ fuel) :
    ∃ l : BitVec 64, parse n fuel (format 0 (.arr ((a :: b :: ls).map Val.long ++ [.chars t]))) =
      .ok (.longs (a :: b :: ls ++ [l]), []) ∧ l.toInt = i := by
  obtain ⟨n, rfl⟩ : ∃ m, n = m + 2 := ⟨n - 2, by omega⟩
  have hl : (BitVec.ofInt 64 i).toInt = i := by
    rw [BitVec.toInt_ofInt]
    refine Int.bmod_eq_of_le ?_ ?_
    · have := hi.1; omega
    · have := hi.2; omega
  refine ⟨BitVec.ofInt 64 i, ?_, hl⟩
  have hclean : Clean t := by
    refine ⟨?_, ?_, ?_⟩ <;> intro hm <;> exact absurd (h.chars _ hm) (by decide)
  have hw : List.Forall₂ (fun v w => Trips v w ∧ Starts v) ((a :: b :: ls).map Val.long ++ [.chars t])
      ((a :: b :: ls).map Val.long ++ [.chars t]) := by
    refine List.rel_append ?_ ?_
    · rw [List.forall₂_same]
      intro v hv
      obtain ⟨l, -, rfl⟩ := List.mem_map.1 hv
      exact ⟨trips_int _ _ (fun ind => by rw [format]), starts_int _ l.toInt (fun ind => by rw [format])⟩
    · obtain ⟨w, h1, h2, h3, -⟩ := good_trips (.chars t hclean)
      cases h1
      exact .cons ⟨h2, h3⟩ .nil
  have hr : readNum 64 t = some (BitVec.ofInt 64 i) := by
    have := h.read hi [] (by simp)
    simpa using this
  have hp : ((a :: b :: ls).map Val.long ++ [Val.chars t]).foldlM push .nil =
      .ok (.longs (a :: b :: ls ++ [BitVec.ofInt 64 i])) := by
    rw [List.foldlM_append, push_ints, Outcome.bind_ok]
    simp [push, castLong, castTo, hr]
  obtain ⟨s', h3, h4⟩ := trips_arr _ _ hw _ hp n 0 [] (Or.inl rfl)
  rw [List.append_nil] at h3
  rw [parse_of_runs h3 fuel hf]
  rw [show s'.rest = [] from h4]

-- "-42"
example : Numeral [45, 52, 50] (-42) ∧ JsonSpec.Fits (-42) :=
  ⟨⟨[4, 2], ⟨by simp, by decide⟩, Or.inr ⟨by decide, by decide⟩⟩, by decide⟩

#print axioms string_round_trip_iff
#print axioms mixed_array_lost
#print axioms numeral_string_absorbed

end Libube.Json

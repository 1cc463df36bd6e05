import Verif.Lemmas.JsonTrip

/-! # Lemmas about parsing numerals and lists of numerals -/

namespace Libube.Json

open Libube Libube.CString Libube.JsonSpec

theorem parse_of_runs {n s v s'} (h : Runs (n + 2) s v s') (fuel : Nat) (hf : 2 * s.length + 1 ≤ fuel) :
    parse (n + 2) fuel s = .ok (v, s'.rest) := by
  unfold parse; rw [doValue_of_runs h fuel hf]; rfl

theorem digitText_digits {ds : List Nat} (h : ∀ d ∈ ds, d < 10) : ∀ c ∈ digitText ds, isdigit c = true := by
  intro c hc
  obtain ⟨d, hd, rfl⟩ := List.mem_map.1 hc
  exact isdigit_ofNat (h d hd)

theorem digitsVal_text (ds : List Nat) (h : ∀ d ∈ ds, d < 10) : digitsVal (digitText ds) = number ds := by
  unfold digitsVal digitText number
  rw [List.foldl_map]
  suffices ∀ a, ds.foldl (fun a d => a * 10 + ((UInt8.ofNat (48 + d)).toNat - 48)) a = ds.foldl (fun a d => 10 * a + d) a from
    this 0
  intro a
  induction ds generalizing a with
  | nil => rfl
  | cons d ds ih =>
    simp only [List.foldl_cons]
    rw [digit_ofNat (h d (by simp)), ih (fun x hx => h x (by simp [hx])), Nat.mul_comm]

theorem _root_.Libube.JsonSpec.Numeral.chars {t : Bytes} {i} (h : Numeral t i) : ∀ c ∈ t, isdigit c = true ∨ c = 45 := by
  obtain ⟨ds, ⟨h1, h2⟩, ⟨rfl, -⟩ | ⟨rfl, -⟩⟩ := h
  · exact fun c hc => Or.inl (digitText_digits h2 c hc)
  · intro c hc
    rcases List.mem_cons.1 hc with rfl | hc
    · exact Or.inr rfl
    · exact Or.inl (digitText_digits h2 c hc)

theorem _root_.Libube.JsonSpec.Numeral.ne_nil {t : Bytes} {i} (h : Numeral t i) : t ≠ [] := by
  obtain ⟨ds, ⟨h1, h2⟩, ⟨rfl, -⟩ | ⟨rfl, -⟩⟩ := h
  · simpa [digitText] using h1
  · simp

theorem _root_.Libube.JsonSpec.Numeral.read {t : Bytes} {i} (h : Numeral t i) (hi : Fits i) (u : Bytes)
    (hu : ∀ c, u.head? = some c → isdigit c = false) : readNum 64 (t ++ u) = some (BitVec.ofInt 64 i) := by
  obtain ⟨ds, ⟨h1, h2⟩, ⟨rfl, rfl⟩ | ⟨rfl, rfl⟩⟩ := h
  · rw [readNum_digits 64 _ u (digitText_digits h2) (by simpa [digitText] using h1) hu, digitsVal_text ds h2]
    rw [digitsVal_text ds h2]; exact hi.2
  · rw [readNum_neg 64 _ u (digitText_digits h2) (by simpa [digitText] using h1) hu, digitsVal_text ds h2]
    rw [digitsVal_text ds h2]; have := hi.1; omega

theorem _root_.Libube.JsonSpec.Numeral.value {t : Bytes} {i} (h : Numeral t i) (hi : Fits i) :
    rawValue t = .ok (.long (BitVec.ofInt 64 i)) := by
  have := h.read hi [] (by simp)
  rw [List.append_nil] at this
  refine rawValue_of_read this ?_
  intro c hc
  have := isdigit_plain c (h.chars c (List.mem_of_head? hc))
  exact ⟨this.2.2.2.2.2.2.2.1, this.2.2.2.2.2.2.2.2.1, this.2.2.2.2.2.2.2.2.2.1⟩

theorem _root_.Libube.JsonSpec.Numeral.starts {t : Bytes} {i} (h : Numeral t i) :
    ∃ c r, t = c :: r ∧ (isdigit c = true ∨ c = 45) := by
  obtain ⟨c, r, he⟩ := List.exists_cons_of_ne_nil h.ne_nil
  exact ⟨c, r, he, h.chars c (by rw [he]; simp)⟩

theorem _root_.Libube.JsonSpec.Numeral.runs {t : Bytes} {i} (h : Numeral t i) (hi : Fits i) (n : Nat) (c : UInt8) (u : Bytes)
    (hc : isDelim c = true) : Runs n (t ++ c :: u) (.long (BitVec.ofInt 64 i)) ⟨u, false⟩ := by
  obtain ⟨d, r, he, hd⟩ := h.starts
  have hp := isdigit_plain d hd
  refine Runs.raw ?_ ⟨d, r ++ c :: u, by rw [he]; rfl, hp.1, hp.2.2.2.1, hp.2.2.2.2.1, hp.2.2.1⟩
  unfold doRaw
  rw [rawLoop_delim [] t c u (fun x hx => (isdigit_plain x (h.chars x hx)).2.1) hc]
  simp [h.value hi]

theorem _root_.Libube.JsonSpec.Numeral.runs_end {t : Bytes} {i} (h : Numeral t i) (hi : Fits i) (n : Nat) :
    Runs n t (.long (BitVec.ofInt 64 i)) ⟨[], true⟩ := by
  obtain ⟨d, r, he, hd⟩ := h.starts
  have hp := isdigit_plain d hd
  refine Runs.raw ?_ ⟨d, r, he, hp.1, hp.2.2.2.1, hp.2.2.2.2.1, hp.2.2.1⟩
  unfold doRaw
  rw [rawLoop_end [] t (fun x hx => (isdigit_plain x (h.chars x hx)).2.1)]
  simp [h.value hi]

/-- The loop over an array ends with this outcome, at some depth. -/
def EndsA (n : Nat) (s : Stream) (a : Val) (o : Outcome (Val × Stream)) : Prop :=
  (∃ f, arrLoop n f s a = o) ∧ o ≠ .diverge

theorem EndsA.value {n} {s : Bytes} {a x a' s1 o} (hx : Runs n s x s1) (hp : push a x = .ok a')
    (h : EndsA n s1 a' o) (hh : ∃ c r, Json.skip s = c :: r ∧ c ≠ 93 ∧ c ≠ 44) :
    EndsA n ⟨s, false⟩ a o := by
  obtain ⟨f, hf⟩ := hx.skip (t := Json.skip s) (skip_skip s)
  obtain ⟨⟨g, hg⟩, ho⟩ := h
  obtain ⟨c, r, hc, hc1, hc2⟩ := hh
  refine ⟨⟨max f g + 1, ?_⟩, ho⟩
  have hf := doValue_mono hf (by simp) (Nat.le_max_left f g)
  have hg := arrLoop_mono hg ho (Nat.le_max_right f g)
  rw [arrLoop]
  simp only [Bool.false_eq_true, if_false]
  rw [hc] at hf ⊢
  split
  · rename_i h; simp only [List.cons.injEq] at h; exact absurd h.1 hc1
  · rename_i h; simp only [List.cons.injEq] at h; exact absurd h.1 hc2
  · rw [hf]
    simp only [Outcome.bind_ok, hp]
    exact hg

theorem EndsA.bad {n} {s : Bytes} {a x s1 u} (hx : Runs n s x s1) (hp : push a x = .ub u)
    (hh : ∃ c r, Json.skip s = c :: r ∧ c ≠ 93 ∧ c ≠ 44) : EndsA n ⟨s, false⟩ a (.ub u) := by
  obtain ⟨f, hf⟩ := hx.skip (t := Json.skip s) (skip_skip s)
  obtain ⟨c, r, hc, hc1, hc2⟩ := hh
  refine ⟨⟨f + 1, ?_⟩, by simp⟩
  rw [arrLoop]
  simp only [Bool.false_eq_true, if_false]
  rw [hc] at hf ⊢
  split
  · rename_i h; simp only [List.cons.injEq] at h; exact absurd h.1 hc1
  · rename_i h; simp only [List.cons.injEq] at h; exact absurd h.1 hc2
  · rw [hf]
    simp only [Outcome.bind_ok, hp, Outcome.bind_ub]

theorem EndsA.end (n) (a : Val) : EndsA n ⟨[], false⟩ a (.thrown (.error "Unrecognised JSON raw value: ")) := by
  refine ⟨⟨2, ?_⟩, by simp⟩
  rw [arrLoop]
  simp [skip, doValue, doRaw, rawLoop, rawValue_nil]

theorem EndsA.close (n) (u : Bytes) (a : Val) : EndsA n ⟨93 :: u, false⟩ a (.ok (a, ⟨u, false⟩)) :=
  ⟨RunsA.close n u a, by simp⟩

theorem EndsA.comma {n} {t : Bytes} {a o} (h : EndsA n ⟨t, false⟩ a o) : EndsA n ⟨44 :: t, false⟩ a o := by
  obtain ⟨⟨f, hf⟩, ho⟩ := h
  refine ⟨⟨f + 1, ?_⟩, ho⟩
  rw [arrLoop]
  simp only [skip_head (show isspace 44 = false by decide), Bool.false_eq_true, if_false]
  exact hf

theorem EndsA.skip {n} {s t : Bytes} {a o} (h : EndsA n ⟨s, false⟩ a o) (he : skip t = Json.skip s) :
    EndsA n ⟨t, false⟩ a o := by
  obtain ⟨⟨f, hf⟩, ho⟩ := h
  cases f with
  | zero => rw [arrLoop] at hf; exact absurd hf.symm ho
  | succ f =>
    refine ⟨⟨f + 1, ?_⟩, ho⟩
    rw [arrLoop] at hf ⊢
    simp only at hf ⊢
    rw [he]; exact hf

/-- The outcome of a whole text that is an array. -/
theorem parse_of_ends {n} {s : Bytes} {o} (h : EndsA (n + 2) ⟨s, false⟩ .nil o) (fuel : Nat)
    (hf : 2 * (91 :: s).length + 1 ≤ fuel) :
    parse (n + 2) fuel (91 :: s) = (do let (v, s) ← o; .ok (v, s.rest)) := by
  obtain ⟨⟨f, hf'⟩, ho⟩ := h
  have h1 : doValue (n + 2) (f + 1) (91 :: s) = o := by
    rw [doValue]
    simp only [skip_head (show isspace 91 = false by decide)]
    exact hf'
  have h2 := doValue_mono h1 ho (Nat.le_max_left (f + 1) fuel)
  have h3 : doValue (n + 2) fuel (91 :: s) ≠ .diverge := by
    intro hc
    have := ((settles n fuel).1 _ hf).1
    rw [hc] at this; exact this
  have h4 := doValue_mono (f' := max (f + 1) fuel) rfl h3 (Nat.le_max_right (f + 1) fuel)
  unfold parse
  rw [← h4, h2]

/-- Longs so far: what `push` accumulates from longs. -/
def accum : List (BitVec 64) → Val
  | [] => .nil
  | [l] => .long l
  | ls => .longs ls

theorem push_accum (ls : List (BitVec 64)) (l : BitVec 64) : push (accum ls) (.long l) = .ok (accum (ls ++ [l])) := by
  match ls with
  | [] => simp [accum, push, Val.type]
  | [a] => rfl
  | a :: b :: ls => simp [accum, push, castLong, castTo, Val.type, scalarToInt]

theorem listText_cons (t : Bytes) (ts : List Bytes) (h : ts ≠ []) : listText (t :: ts) = t ++ [44, 32] ++ listText ts := by
  obtain ⟨u, ts, rfl⟩ := List.exists_cons_of_ne_nil h
  rfl

theorem _root_.Libube.JsonSpec.Numeral.not_close {t : Bytes} {i} (h : Numeral t i) (u : Bytes) :
    ∃ c r, skip (t ++ u) = c :: r ∧ c ≠ 93 ∧ c ≠ 44 := by
  obtain ⟨d, r, he, hd⟩ := h.starts
  have hp := isdigit_plain d hd
  exact ⟨d, r ++ u, by rw [he, List.cons_append, skip_head hp.1], hp.2.2.2.2.2.1, hp.2.2.2.2.2.2.1⟩

/-- Numerals separated by comma and blank, the last one followed by a delimiter `d`. -/
theorem ends_list (n : Nat) (d : UInt8) (hd : isDelim d = true) (u : Bytes) (o) (ts : List (Bytes × Int))
    (hts : ∀ p ∈ ts, Numeral p.1 p.2 ∧ Fits p.2) (hne : ts ≠ []) (ls : List (BitVec 64))
    (ho : EndsA n ⟨u, false⟩ (accum (ls ++ ts.map (fun p => BitVec.ofInt 64 p.2))) o) :
    EndsA n ⟨listText (ts.map Prod.fst) ++ d :: u, false⟩ (accum ls) o := by
  induction ts generalizing ls with
  | nil => exact absurd rfl hne
  | cons p ts ih =>
    obtain ⟨h1, h2⟩ := hts p (by simp)
    by_cases he : ts = []
    · subst he
      exact EndsA.value (h1.runs h2 n d u hd) (push_accum ls _) ho (h1.not_close _)
    · have ih := ih (fun q hq => hts q (by simp [hq])) he (ls ++ [BitVec.ofInt 64 p.2]) (by simpa using ho)
      rw [List.map_cons, listText_cons _ _ (by simpa using he)]
      have h3 := ih.skip (t := 32 :: (listText (ts.map Prod.fst) ++ d :: u)) (skip_cons (by decide) _)
      have := EndsA.value (h1.runs h2 n 44 _ (by decide)) (push_accum ls _) h3 (h1.not_close _)
      simpa using this

end Libube.Json

import Verif.Lemmas.Json

/-! # Lemmas about parsing formatted values -/

namespace Libube.Json

open Libube Libube.CString Libube.JsonSpec
open Libube.OrderSpec (IsKey KeyLt)
open Libube.Order (KeyClass WF code isKey_class)

/-- The calls give this result at some depth. -/
def Runs (n : Nat) (s : Bytes) (v : Val) (s' : Stream) : Prop := ∃ f, doValue n f s = .ok (v, s')
@[inherit_doc Runs]
def RunsA (n : Nat) (s : Stream) (a v : Val) (s' : Stream) : Prop := ∃ f, arrLoop n f s a = .ok (v, s')
@[inherit_doc Runs]
def RunsO (n : Nat) (s : Stream) (ps : List (Val × Val)) (k : Option Bytes) (v : Val) (s' : Stream) : Prop :=
  ∃ f, objLoop n f s ps k = .ok (v, s')

/-- A result at some depth is the result at every sufficient depth. -/
theorem doValue_of_runs {n s v s'} (h : Runs (n + 2) s v s') (f : Nat) (hf : 2 * s.length + 1 ≤ f) :
    doValue (n + 2) f s = .ok (v, s') := by
  obtain ⟨g, hg⟩ := h
  have h1 := doValue_mono hg (by simp) (Nat.le_max_left g f)
  have h2 : doValue (n + 2) f s ≠ .diverge := by
    intro hc
    have := ((settles n f).1 s hf).1
    rw [hc] at this; exact this
  have h3 := doValue_mono (f' := max g f) rfl h2 (Nat.le_max_right g f)
  rw [← h3, h1]

/-! ### white space -/

theorem skip_blank (b s : Bytes) (hb : ∀ c ∈ b, isspace c = true) : skip (b ++ s) = skip s := by
  unfold skip; rw [List.dropWhile_append_of_pos hb]

theorem skip_cons {c : UInt8} (h : isspace c = true) (s : Bytes) : skip (c :: s) = skip s :=
  skip_blank [c] s (by simpa using h)

theorem skip_head {c : UInt8} (h : isspace c = false) (s : Bytes) : skip (c :: s) = c :: s := by
  unfold skip; rw [List.dropWhile_cons_of_neg (by simp [h])]

theorem skip_skip (s : Bytes) : skip (skip s) = skip s := by
  unfold skip
  induction s with
  | nil => rfl
  | cons c s ih => by_cases h : isspace c = true <;> simp [h, ih]

theorem spaces_blank (k : Nat) : ∀ c ∈ spaces k, isspace c = true := by
  intro c hc
  rw [List.eq_of_mem_replicate hc]; decide

theorem Runs.skip {n s t v s'} (h : Runs n s v s') (he : skip t = Json.skip s) : Runs n t v s' := by
  obtain ⟨f, hf⟩ := h
  cases f with
  | zero => simp [doValue] at hf
  | succ f =>
    refine ⟨f + 1, ?_⟩
    rw [doValue] at hf ⊢
    rw [he]; exact hf

theorem RunsA.skip {n} {s t : Bytes} {a v s'} (h : RunsA n ⟨s, false⟩ a v s') (he : skip t = Json.skip s) :
    RunsA n ⟨t, false⟩ a v s' := by
  obtain ⟨f, hf⟩ := h
  cases f with
  | zero => simp [arrLoop] at hf
  | succ f =>
    refine ⟨f + 1, ?_⟩
    rw [arrLoop] at hf ⊢
    simp only at hf ⊢
    rw [he]; exact hf

theorem RunsO.skip {n} {s t : Bytes} {ps k v s'} (h : RunsO n ⟨s, false⟩ ps k v s')
    (he : skip t = Json.skip s) : RunsO n ⟨t, false⟩ ps k v s' := by
  obtain ⟨f, hf⟩ := h
  cases f with
  | zero => simp [objLoop] at hf
  | succ f =>
    refine ⟨f + 1, ?_⟩
    rw [objLoop] at hf ⊢
    simp only at hf ⊢
    rw [he]; exact hf

/-! ### steps -/

theorem RunsA.close (n) (t : Bytes) (a : Val) : RunsA n ⟨93 :: t, false⟩ a a ⟨t, false⟩ := by
  refine ⟨1, ?_⟩
  rw [arrLoop]
  simp [skip_head (show isspace 93 = false by decide)]

theorem RunsA.comma {n} {t : Bytes} {a v s'} (h : RunsA n ⟨t, false⟩ a v s') :
    RunsA n ⟨44 :: t, false⟩ a v s' := by
  obtain ⟨f, hf⟩ := h
  refine ⟨f + 1, ?_⟩
  rw [arrLoop]
  simp only [skip_head (show isspace 44 = false by decide), Bool.false_eq_true, if_false]
  exact hf

theorem RunsA.value {n} {s : Bytes} {a x a' v s1 s'} (hx : Runs n s x s1) (hp : push a x = .ok a')
    (h : RunsA n s1 a' v s') (hh : ∃ c r, Json.skip s = c :: r ∧ c ≠ 93 ∧ c ≠ 44) :
    RunsA n ⟨s, false⟩ a v s' := by
  obtain ⟨f, hf⟩ := hx.skip (t := Json.skip s) (skip_skip s)
  obtain ⟨g, hg⟩ := h
  obtain ⟨c, r, hc, hc1, hc2⟩ := hh
  refine ⟨max f g + 1, ?_⟩
  have hf := doValue_mono hf (by simp) (Nat.le_max_left f g)
  have hg := arrLoop_mono hg (by simp) (Nat.le_max_right f g)
  rw [arrLoop]
  simp only [Bool.false_eq_true, if_false]
  rw [hc] at hf ⊢
  split
  · rename_i h; simp only [List.cons.injEq] at h; exact absurd h.1 hc1
  · rename_i h; simp only [List.cons.injEq] at h; exact absurd h.1 hc2
  · rw [hf]
    simp only [Outcome.bind_ok, hp]
    exact hg

theorem Runs.array {n} {s : Bytes} {v s'} (h : RunsA n ⟨s, false⟩ .nil v s') : Runs n (91 :: s) v s' := by
  obtain ⟨f, hf⟩ := h
  refine ⟨f + 1, ?_⟩
  rw [doValue]
  simp only [skip_head (show isspace 91 = false by decide)]
  exact hf

theorem Runs.object {n} {s : Bytes} {v s'} (h : RunsO n ⟨s, false⟩ [] none v s') : Runs n (123 :: s) v s' := by
  obtain ⟨f, hf⟩ := h
  refine ⟨f + 1, ?_⟩
  rw [doValue]
  simp only [skip_head (show isspace 123 = false by decide)]
  exact hf

theorem RunsO.close (n) (t : Bytes) (ps k) : RunsO n ⟨125 :: t, false⟩ ps k (.map ps) ⟨t, false⟩ := by
  refine ⟨1, ?_⟩
  rw [objLoop]
  simp [skip_head (show isspace 125 = false by decide)]

theorem RunsO.comma {n} {t : Bytes} {ps k v s'} (h : RunsO n ⟨t, false⟩ ps none v s') :
    RunsO n ⟨44 :: t, false⟩ ps k v s' := by
  obtain ⟨f, hf⟩ := h
  refine ⟨f + 1, ?_⟩
  rw [objLoop]
  simp only [skip_head (show isspace 44 = false by decide), Bool.false_eq_true, if_false]
  exact hf

theorem strLoop_clean (acc s t : Bytes) (h1 : 34 ∉ s) (h2 : 92 ∉ s) :
    strLoop acc (s ++ 34 :: t) = .ok (acc ++ s, t) := by
  induction s generalizing acc with
  | nil => rw [List.nil_append, strLoop.eq_def]; simp
  | cons c s ih =>
    simp only [List.mem_cons, not_or] at h1 h2
    rw [List.cons_append, strLoop.eq_def]
    simp only [if_neg (Ne.symm h1.1), if_neg (Ne.symm h2.1)]
    rw [ih _ h1.2 h2.2]; simp

theorem RunsO.key {n} {s t : Bytes} {ps k v s'} (h1 : 34 ∉ s) (h2 : 92 ∉ s)
    (h : RunsO n ⟨t, false⟩ ps (some s) v s') : RunsO n ⟨34 :: s ++ 34 :: t, false⟩ ps k v s' := by
  obtain ⟨f, hf⟩ := h
  refine ⟨f + 1, ?_⟩
  rw [objLoop]
  simp only [List.cons_append, skip_head (show isspace 34 = false by decide), Bool.false_eq_true, if_false,
    doString, strLoop_clean [] s t h1 h2, Outcome.bind_ok, List.nil_append]
  exact hf

theorem RunsO.value {n} {t : Bytes} {ps ps' s x v s1 s'} (hx : Runs n t x s1)
    (hb : mapSet n ps (.chars s) x = .ok ps') (h : RunsO n s1 ps' (some s) v s') :
    RunsO n ⟨58 :: t, false⟩ ps (some s) v s' := by
  obtain ⟨f, hf⟩ := hx
  obtain ⟨g, hg⟩ := h
  refine ⟨max f g + 1, ?_⟩
  have hf := doValue_mono hf (by simp) (Nat.le_max_left f g)
  have hg := objLoop_mono hg (by simp) (Nat.le_max_right f g)
  rw [objLoop]
  simp only [skip_head (show isspace 58 = false by decide), Bool.false_eq_true, if_false, hf, Outcome.bind_ok,
    bindKey, hb]
  exact hg

theorem Runs.string (n) (s t : Bytes) (h1 : 34 ∉ s) (h2 : 92 ∉ s) :
    Runs n (34 :: s ++ 34 :: t) (.chars s) ⟨t, false⟩ := by
  refine ⟨1, ?_⟩
  rw [doValue]
  simp only [List.cons_append, skip_head (show isspace 34 = false by decide), doString,
    strLoop_clean [] s t h1 h2, Outcome.bind_ok, List.nil_append]

theorem Runs.raw {n} {s : Bytes} {v s'} (h : doRaw s = .ok (v, s'))
    (hh : ∃ c r, s = c :: r ∧ isspace c = false ∧ c ≠ 123 ∧ c ≠ 91 ∧ c ≠ 34) : Runs n s v s' := by
  obtain ⟨c, r, rfl, h1, h2, h3, h4⟩ := hh
  refine ⟨1, ?_⟩
  rw [doValue, skip_head h1]
  split
  · rename_i h; simp only [List.cons.injEq] at h; exact absurd h.1 h2
  · rename_i h; simp only [List.cons.injEq] at h; exact absurd h.1 h3
  · rename_i h; simp only [List.cons.injEq] at h; exact absurd h.1 h4
  · exact h

/-! ### what follows a value -/

/-- Text that may follow a value in formatted text. -/
def Tail (t : Bytes) : Prop := t = [] ∨ ∃ t', t = 44 :: t' ∨ t = 10 :: t'

/-- The stream after a value followed by such text: raw values take one character with them. -/
def After (t : Bytes) (s : Stream) : Prop :=
  match t with
  | [] => s.rest = []
  | c :: t' => s = ⟨c :: t', false⟩ ∨ s = ⟨t', false⟩

theorem RunsA.after {n} {c : UInt8} {t : Bytes} {a v s' s1} (h : RunsA n ⟨t, false⟩ a v s')
    (hc : c = 44 ∨ c = 10) (ha : After (c :: t) s1) : RunsA n s1 a v s' := by
  rcases ha with rfl | rfl
  · rcases hc with rfl | rfl
    · exact h.comma
    · exact h.skip (skip_cons (by decide) t)
  · exact h

theorem RunsO.after {n} {c : UInt8} {t : Bytes} {ps k v s' s1} (h : ∀ k, RunsO n ⟨t, false⟩ ps k v s')
    (hc : c = 44 ∨ c = 10) (ha : After (c :: t) s1) : RunsO n s1 ps k v s' := by
  rcases ha with rfl | rfl
  · rcases hc with rfl | rfl
    · exact (h none).comma
    · exact (h k).skip (skip_cons (by decide) t)
  · exact h k

/-- The formatted value parses to `w`. -/
def Trips (v w : Val) : Prop :=
  ∀ n ind t, Tail t → ∃ s', Runs (n + 2) (format ind v ++ t) w s' ∧ After t s'

/-- The text of a value begins with something that is neither blank, a comma nor a bracket. -/
def Starts (v : Val) : Prop :=
  ∀ ind, ∃ c r, format ind v = c :: r ∧ isspace c = false ∧ c ≠ 93 ∧ c ≠ 44

theorem trips_raw {v w : Val} (s : Bytes) (hf : ∀ ind, format ind v = s) (hv : rawValue s = .ok w)
    (hs : ∀ c ∈ s, isDelim c = false) (hh : ∃ c r, s = c :: r ∧ isspace c = false ∧ c ≠ 123 ∧ c ≠ 91 ∧ c ≠ 34) :
    Trips v w := by
  intro n ind t ht
  obtain ⟨c, r, hc, h1, h2, h3, h4⟩ := hh
  rw [hf]
  have hcase : ∃ s', doRaw (s ++ t) = .ok (w, s') ∧ After t s' := by
    unfold doRaw
    rcases ht with rfl | ⟨t', rfl | rfl⟩
    · rw [List.append_nil, rawLoop_end [] s hs]
      simp only [List.nil_append, hv, Outcome.bind_ok]
      exact ⟨_, rfl, rfl⟩
    · rw [rawLoop_delim [] s 44 t' hs (by decide)]
      simp only [List.nil_append, hv, Outcome.bind_ok]
      exact ⟨_, rfl, Or.inr rfl⟩
    · rw [rawLoop_delim [] s 10 t' hs (by decide)]
      simp only [List.nil_append, hv, Outcome.bind_ok]
      exact ⟨_, rfl, Or.inr rfl⟩
  obtain ⟨s', h5, h6⟩ := hcase
  exact ⟨s', Runs.raw h5 ⟨c, r ++ t, by rw [hc]; rfl, h1, h2, h3, h4⟩, h6⟩

theorem trips_int (v : Val) (l : BitVec 64) (h : ∀ ind, format ind v = showInt l.toInt) : Trips v (.long l) := by
  refine trips_raw (showInt l.toInt) h (rawValue_showInt l)
    (fun c hc => (isdigit_plain c (showInt_chars _ c hc)).2.1) ?_
  obtain ⟨c, r, hc, hd⟩ := showInt_head l.toInt []
  rw [List.append_nil] at hc
  have := isdigit_plain c hd
  exact ⟨c, r, hc, this.1, this.2.2.2.1, this.2.2.2.2.1, this.2.2.1⟩

theorem starts_int (v : Val) (l : Int) (h : ∀ ind, format ind v = showInt l) : Starts v := by
  intro ind
  obtain ⟨c, r, hc, hd⟩ := showInt_head l []
  rw [List.append_nil] at hc
  have := isdigit_plain c hd
  exact ⟨c, r, by rw [h, hc], this.1, this.2.2.2.2.2.1, this.2.2.2.2.2.2.1⟩

theorem formatItems_cons (ind : Nat) (x : Val) (xs : List Val) :
    ∃ sep, (sep = [10] ∨ sep = [44, 10]) ∧
      formatItems ind (x :: xs) = spaces (ind + 2) ++ format (ind + 2) x ++ sep ++ formatItems ind xs := by
  cases xs with
  | nil => exact ⟨[10], Or.inl rfl, by rw [formatItems, formatItems]; simp⟩
  | cons y xs => exact ⟨[44, 10], Or.inr rfl, by rw [formatItems]⟩

/-- The elements of an array, pushed one after the other. -/
theorem runs_items (n ind : Nat) (t : Bytes) (xs ws : List Val)
    (h : List.Forall₂ (fun v w => Trips v w ∧ Starts v) xs ws) (acc final : Val)
    (hp : ws.foldlM push acc = .ok final) :
    RunsA (n + 2) ⟨formatItems ind xs ++ (spaces ind ++ 93 :: t), false⟩ acc final ⟨t, false⟩ := by
  induction h generalizing acc with
  | nil =>
    simp only [List.foldlM_nil, Outcome.pure_eq, Outcome.ok.injEq] at hp
    subst hp
    rw [formatItems, List.nil_append]
    exact (RunsA.close _ t acc).skip (skip_blank _ _ (spaces_blank _))
  | @cons x w xs ws hx _ ih =>
    rw [List.foldlM_cons] at hp
    cases hq : push acc w with
    | ok acc' =>
      rw [hq] at hp
      have ih := ih acc' hp
      obtain ⟨sep, hsep, he⟩ := formatItems_cons ind x xs
      rw [he]
      rw [List.append_assoc]
      generalize formatItems ind xs ++ (spaces ind ++ 93 :: t) = rest at ih ⊢
      obtain ⟨c, r, hc, h1, h2, h3⟩ := hx.2 (ind + 2)
      have key : ∀ d u, (d = 44 ∨ d = 10) → RunsA (n + 2) ⟨u, false⟩ acc' final ⟨t, false⟩ →
          RunsA (n + 2) ⟨spaces (ind + 2) ++ (format (ind + 2) x ++ d :: u), false⟩ acc final ⟨t, false⟩ := by
        intro d u hd hu
        obtain ⟨s1, hr, ha⟩ := hx.1 n (ind + 2) (d :: u) (Or.inr ⟨u, by rcases hd with rfl | rfl <;> simp⟩)
        have := RunsA.value hr hq (hu.after hd ha) ⟨c, r ++ d :: u, by
          rw [hc, List.cons_append, skip_head h1], h2, h3⟩
        exact this.skip (skip_blank _ _ (spaces_blank _))
      rcases hsep with rfl | rfl
      · simpa using key 10 rest (Or.inr rfl) ih
      · simpa using key 44 (10 :: rest) (Or.inl rfl) (ih.skip (skip_cons (by decide) rest))
    | thrown e => rw [hq] at hp; simp at hp
    | ub e => rw [hq] at hp; simp at hp
    | abort => rw [hq] at hp; simp at hp
    | diverge => rw [hq] at hp; simp at hp

theorem after_self {t : Bytes} (ht : Tail t) : After t ⟨t, false⟩ := by
  rcases ht with rfl | ⟨t', rfl | rfl⟩
  · rfl
  · exact Or.inl rfl
  · exact Or.inl rfl

theorem trips_arr (xs ws : List Val) (h : List.Forall₂ (fun v w => Trips v w ∧ Starts v) xs ws) (final : Val)
    (hp : ws.foldlM push .nil = .ok final) : Trips (.arr xs) final := by
  intro n ind t ht
  refine ⟨⟨t, false⟩, ?_, after_self ht⟩
  rw [format]
  have := (runs_items n ind t xs ws h .nil final hp).skip
    (t := 10 :: (formatItems ind xs ++ (spaces ind ++ 93 :: t))) (skip_cons (by decide) _)
  simpa using Runs.array this

theorem push_arr (ws : List Val) (xs : List Val) : ws.foldlM push (.arr xs) = .ok (.arr (xs ++ ws)) := by
  induction ws generalizing xs with
  | nil => simp
  | cons w ws ih => simp only [List.foldlM_cons, push, Outcome.bind_ok, ih]; simp

theorem push_first (w : Val) (ws : List Val) (h : w.type = 0) :
    (w :: ws).foldlM push .nil = .ok (.arr (w :: ws)) := by
  simp only [List.foldlM_cons, push, h, ne_eq, not_true_eq_false, if_false, Outcome.bind_ok, push_arr]
  simp

theorem push_longs (ls : List (BitVec 64)) (xs : List (BitVec 64)) :
    (ls.map Val.long).foldlM push (.longs xs) = .ok (.longs (xs ++ ls)) := by
  induction ls generalizing xs with
  | nil => simp
  | cons w ls ih =>
    have : push (.longs xs) (.long w) = .ok (.longs (xs ++ [w])) := by
      simp [push, castLong, castTo, Val.type, scalarToInt]
    simp only [List.map_cons, List.foldlM_cons, this, Outcome.bind_ok, ih]; simp

theorem push_ints (a b : BitVec 64) (ls : List (BitVec 64)) :
    ((a :: b :: ls).map Val.long).foldlM push .nil = .ok (.longs (a :: b :: ls)) := by
  have h1 : push .nil (.long a) = .ok (.long a) := by simp [push, Val.type]
  have h2 : push (.long a) (.long b) = .ok (.longs [a, b]) := rfl
  simp only [List.map_cons, List.foldlM_cons, h1, h2, Outcome.bind_ok, push_longs]; simp

theorem formatMembers_cons (ind : Nat) (k : Bytes) (v : Val) (ps : List (Val × Val)) :
    formatMembers ind ((.chars k, v) :: ps) = 10 :: spaces (ind + 2) ++ (34 :: cstr k ++ [34]) ++ [58, 32] ++
      format (ind + 2) v ++ (if ps = [] then [] else 44 :: formatMembers ind ps) := by
  cases ps with
  | nil => simp [formatMembers, format]
  | cons p ps => rw [formatMembers]; simp [format]

theorem mapSet_last {K : Val → Prop} {cd : Val → List Int} {n : Nat} (hK : KeyClass n K cd)
    (ps : List (Val × Val)) (k v : Val) (hk : K k) (h : WF K cd ps)
    (hl : ∀ p ∈ ps, cd p.1 < cd k) : mapSet n ps k v = .ok (ps ++ [(k, v)]) := by
  have hb := Order.binary_map hK ps [] k hk (by simpa using h) hl (by simp)
  rw [List.append_nil] at hb
  have h1 : mapRef n ps k = .ok (ps ++ [(k, .nil)], some ps.length) := by
    unfold mapRef
    have hd : (!k.defined) = false := by rw [hK.defined k hk]; rfl
    rw [hd]
    simp only [Bool.false_eq_true, if_false, hb, Outcome.bind_ok]
    have : ps[ps.length]? = none := by simp
    simp only [this]
    simp [insertPair]
  unfold mapSet
  simp only [h1, Outcome.bind_ok]
  simp

theorem runs_members (n ind : Nat) (t : Bytes) (ps qs acc : List (Val × Val))
    (h : List.Forall₂ (fun p q => (∃ s, p.1 = .chars s ∧ Clean s) ∧ p.1 = q.1 ∧ Trips p.2 q.2) ps qs)
    (hw : WF IsKey code (acc ++ qs)) (key : Option Bytes) :
    RunsO (n + 2) ⟨formatMembers ind ps ++ 10 :: (spaces ind ++ 125 :: t), false⟩ acc key (.map (acc ++ qs))
      ⟨t, false⟩ := by
  induction h generalizing acc key with
  | nil =>
    rw [formatMembers, List.nil_append, List.append_nil]
    exact (RunsO.close _ t acc key).skip (by
      rw [skip_cons (by decide)]; exact skip_blank _ _ (spaces_blank _))
  | @cons p q ps qs hp _ ih =>
    obtain ⟨⟨s, hs, hcl⟩, hk, htr⟩ := hp
    obtain ⟨pk, pv⟩ := p
    obtain ⟨qk, qv⟩ := q
    simp only at hs hk htr
    subst hs
    subst hk
    rw [formatMembers_cons, StringFns.cstr_of_no_nul s hcl.1]
    have hw1 : WF IsKey code acc := ⟨fun p hp => hw.keys p (by simp [hp]), (List.pairwise_append.1 hw.sorted).1⟩
    have hset : mapSet (n + 2) acc (.chars s) qv = .ok (acc ++ [(.chars s, qv)]) :=
      mapSet_last (isKey_class n) acc _ qv (hw.keys (.chars s, qv) (by simp)) hw1
        (fun p hp => (List.pairwise_append.1 hw.sorted).2.2 p hp (.chars s, qv) (by simp))
    have ih := ih (acc ++ [(.chars s, qv)]) (by simpa using hw)
    rw [show (acc ++ [(Val.chars s, qv)]) ++ qs = acc ++ (Val.chars s, qv) :: qs by simp] at ih
    have key : ∀ d u, (d = 44 ∨ d = 10) → (∀ key, RunsO (n + 2) ⟨u, false⟩ (acc ++ [(.chars s, qv)]) key
        (.map (acc ++ (Val.chars s, qv) :: qs)) ⟨t, false⟩) →
        RunsO (n + 2) ⟨10 :: (spaces (ind + 2) ++ (34 :: s ++ 34 :: 58 :: 32 :: (format (ind + 2) pv ++ d :: u))),
          false⟩ acc key (.map (acc ++ (Val.chars s, qv) :: qs)) ⟨t, false⟩ := by
      intro d u hd hu
      obtain ⟨s1, hr, ha⟩ := htr n (ind + 2) (d :: u) (Or.inr ⟨u, by rcases hd with rfl | rfl <;> simp⟩)
      have h1 := RunsO.value (hr.skip (t := 32 :: (format (ind + 2) pv ++ d :: u)) (skip_cons (by decide) _)) hset
        (RunsO.after (k := some s) hu hd ha)
      have h2 := RunsO.key (k := key) hcl.2.1 hcl.2.2 h1
      refine h2.skip ?_
      rw [skip_cons (by decide)]; exact skip_blank _ _ (spaces_blank _)
    cases ps with
    | nil =>
      have := key 10 (spaces ind ++ 125 :: t) (Or.inr rfl) (fun k => (ih k).skip (by
        rw [formatMembers, List.nil_append, skip_cons (by decide)]))
      simpa using this
    | cons p ps =>
      have := key 44 _ (Or.inl rfl) ih
      simpa using this

theorem trips_map (ps qs : List (Val × Val))
    (h : List.Forall₂ (fun p q => (∃ s, p.1 = .chars s ∧ Clean s) ∧ p.1 = q.1 ∧ Trips p.2 q.2) ps qs)
    (hw : WF IsKey code qs) : Trips (.map ps) (.map qs) := by
  intro n ind t ht
  refine ⟨⟨t, false⟩, ?_, after_self ht⟩
  cases h with
  | nil =>
    rw [format]
    exact Runs.object (RunsO.close (n + 2) t [] none)
  | @cons p q ps qs hp hrest =>
    have := runs_members n ind t (p :: ps) (q :: qs) [] (.cons hp hrest) (by simpa using hw) none
    obtain ⟨k, v⟩ := p
    rw [format]
    simpa using Runs.object this

theorem forall₂_of_forall {α β} {R : α → β → Prop} (xs : List α) (h : ∀ x ∈ xs, ∃ y, R x y) :
    ∃ ys, List.Forall₂ R xs ys := by
  induction xs with
  | nil => exact ⟨[], .nil⟩
  | cons x xs ih =>
    obtain ⟨y, hy⟩ := h x (by simp)
    obtain ⟨ys, hys⟩ := ih (fun z hz => h z (by simp [hz]))
    exact ⟨y :: ys, .cons hy hys⟩

theorem good_int {v : Val} (h : IsInteger v) : ∃ l, Same v (.long l) ∧ Trips v (.long l) ∧ Starts v := by
  cases v with
  | int i =>
    have he : i.toInt = (i.signExtend 64).toInt := by rw [BitVec.toInt_signExtend_of_le (by omega)]
    exact ⟨i.signExtend 64, .int _ _ he, trips_int _ _ (fun ind => by rw [format, he]),
      starts_int _ i.toInt (fun ind => by rw [format])⟩
  | long l => exact ⟨l, .long l, trips_int _ _ (fun ind => by rw [format]),
      starts_int _ l.toInt (fun ind => by rw [format])⟩
  | _ => exact absurd h (by simp [IsInteger])

theorem good_trips {v : Val} (h : Good v) :
    ∃ w, Same v w ∧ Trips v w ∧ Starts v ∧ (¬ IsInteger v → w.type = 0) := by
  induction h with
  | nil =>
    refine ⟨.nil, .nil, ?_, ?_, fun _ => rfl⟩
    · exact trips_raw [110, 117, 108, 108] (fun ind => by rw [format]) rfl (by decide)
        ⟨110, [117, 108, 108], rfl, by decide, by decide, by decide, by decide⟩
    · exact fun ind => ⟨110, [117, 108, 108], by rw [format], by decide, by decide, by decide⟩
  | int i =>
    obtain ⟨l, h1, h2, h3⟩ := good_int (v := .int i) trivial
    exact ⟨.long l, h1, h2, h3, fun hc => absurd trivial hc⟩
  | long l =>
    obtain ⟨l, h1, h2, h3⟩ := good_int (v := .long l) trivial
    exact ⟨.long l, h1, h2, h3, fun hc => absurd trivial hc⟩
  | chars s hs =>
    refine ⟨.chars s, .chars s, ?_, ?_, fun _ => rfl⟩
    · intro n ind t ht
      refine ⟨⟨t, false⟩, ?_, after_self ht⟩
      rw [format, StringFns.cstr_of_no_nul s hs.1]
      simpa using Runs.string (n + 2) s t hs.2.1 hs.2.2
    · intro ind
      exact ⟨34, cstr s ++ [34], by rw [format]; rfl, by decide, by decide, by decide⟩
  | arr x xs hx _ ih =>
    obtain ⟨ws, hws⟩ := forall₂_of_forall _ ih
    refine ⟨.arr ws, .arr _ _ (hws.imp fun _ _ h => h.1), ?_, ?_, fun _ => rfl⟩
    · refine trips_arr _ ws (hws.imp fun _ _ h => ⟨h.2.1, h.2.2.1⟩) _ ?_
      cases hws with
      | cons h _ => exact push_first _ _ (h.2.2.2 hx)
    · exact fun ind => ⟨91, _, by rw [format]; rfl, by decide, by decide, by decide⟩
  | ints x y xs hx =>
    obtain ⟨ls, hls⟩ := forall₂_of_forall _ (fun z hz => good_int (hx z hz))
    have h2 : List.Forall₂ (fun v w => Same v w ∧ Trips v w ∧ Starts v) (x :: y :: xs) (ls.map Val.long) := by
      rw [List.forall₂_map_right_iff]; exact hls
    refine ⟨.longs ls, .longs _ _ (h2.imp fun _ _ h => h.1), ?_, ?_, fun _ => rfl⟩
    · refine trips_arr _ _ (h2.imp fun _ _ h => h.2) _ ?_
      cases hls with
      | cons _ hls => cases hls with
        | cons _ _ => exact push_ints _ _ _
    · exact fun ind => ⟨91, _, by rw [format]; rfl, by decide, by decide, by decide⟩
  | map ps hk hs _ ih =>
    obtain ⟨qs, hqs⟩ := forall₂_of_forall (R := fun (p q : Val × Val) => p.1 = q.1 ∧ Same p.2 q.2 ∧ Trips p.2 q.2 ∧
        ∃ s, p.1 = .chars s ∧ Clean s) ps (fun p hp => by
      obtain ⟨w, h1, h2, -, -⟩ := ih p hp
      exact ⟨(p.1, w), rfl, h1, h2, hk p hp⟩)
    have hfst : ps.map Prod.fst = qs.map Prod.fst := by
      have : List.Forall₂ (fun a b => a = b) (ps.map Prod.fst) (qs.map Prod.fst) := by
        rw [List.forall₂_map_left_iff, List.forall₂_map_right_iff]
        exact hqs.imp fun _ _ h => h.1
      exact List.forall₂_eq_eq_eq ▸ this
    refine ⟨.map qs, .map _ _ hfst ?_, ?_, ?_, fun _ => rfl⟩
    · rw [List.forall₂_map_left_iff, List.forall₂_map_right_iff]
      exact hqs.imp fun _ _ h => h.2.1
    · refine trips_map ps qs (hqs.imp fun _ _ h => ⟨h.2.2.2, h.1, h.2.2.1⟩) ⟨?_, ?_⟩
      · intro q hq
        have : q.1 ∈ ps.map Prod.fst := by rw [hfst]; exact List.mem_map_of_mem hq
        obtain ⟨p, hp, he⟩ := List.mem_map.1 this
        obtain ⟨s, h1, h2⟩ := hk p hp
        rw [← he, h1]; exact h2.1
      · have h1 : (ps.map Prod.fst).Pairwise (fun a b => code a < code b) := by
          rw [List.pairwise_map]
          refine List.Pairwise.imp_of_mem (fun {p q} hp hq hlt => ?_) hs
          obtain ⟨s, e1, c1⟩ := hk p hp
          obtain ⟨t, e2, c2⟩ := hk q hq
          exact (Order.keyLt_iff (by rw [e1]; exact c1.1) (by rw [e2]; exact c2.1)).1 hlt
        rw [hfst, List.pairwise_map] at h1
        exact h1
    · intro ind
      cases ps with
      | nil => exact ⟨123, _, by rw [format], by decide, by decide, by decide⟩
      | cons p ps => exact ⟨123, _, by rw [format]; rfl, by decide, by decide, by decide⟩

end Libube.Json

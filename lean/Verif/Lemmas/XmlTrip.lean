import Verif.Lemmas.Xml
import Verif.Lemmas.GetLine

/-! # Lemmas about writing XML and tokenising what was written -/

namespace Libube.Xml

open Libube Libube.CString Libube.XmlSpec Libube.OrderSpec

/-! ### the tokeniser -/

theorem tokens_append (m : Mode) (a b : Str) :
    tokens m (a ++ b) = match tokens m a with
      | none => none
      | some (m', es) => (tokens m' b).map fun r => (r.1, es ++ r.2) := by
  induction a generalizing m with
  | nil => simp [tokens]
  | cons c a ih =>
    simp only [List.cons_append, tokens]
    cases step m c with
    | none => rfl
    | some p =>
      obtain ⟨m', es⟩ := p
      simp only [ih]
      cases tokens m' a with
      | none => rfl
      | some q =>
        obtain ⟨m'', es'⟩ := q
        simp only [Option.map_some]
        cases tokens m'' b <;> simp

theorem tokens_trans {m m' m'' : Mode} {a b : Str} {es es' : List Event}
    (h1 : tokens m a = some (m', es)) (h2 : tokens m' b = some (m'', es')) :
    tokens m (a ++ b) = some (m'', es ++ es') := by
  rw [tokens_append, h1]; simp [h2]

theorem tokens_one {m m' : Mode} {b : UInt8} {es : List Event} (h : step m b = some (m', es)) :
    tokens m [b] = some (m', es) := by
  simp [tokens, h]

theorem tokens_cons {m m' m'' : Mode} {b : UInt8} {s : Str} {es es' : List Event}
    (h : step m b = some (m', es)) (h2 : tokens m' s = some (m'', es')) :
    tokens m (b :: s) = some (m'', es ++ es') :=
  tokens_trans (a := [b]) (tokens_one h) h2

theorem text_byte (b : UInt8) (h : b = 9 ∨ 32 ≤ b) :
    tokens (.text false) (escapeByte b) = some (.text false, [.text [b]]) := by
  unfold escapeByte
  split
  · subst b; rfl
  split
  · subst b; rfl
  split
  · subst b; rfl
  split
  · subst b; rfl
  split
  · subst b; rfl
  · rename_i h1 h2 h3 h4 h5
    refine tokens_one ?_
    have h6 : b ≠ 13 := by rintro rfl; revert h; decide
    have h7 : TextChar b := by
      rcases h with rfl | h
      · exact Or.inl rfl
      · exact Or.inr (Or.inr (Or.inr h))
    simp [step, h1, h2, h6, h7]

theorem text_run (s : Str) (h : ∀ b ∈ s, b = 9 ∨ 32 ≤ b) :
    tokens (.text false) (escape s) = some (.text false, s.map fun b => .text [b]) := by
  induction s with
  | nil => rfl
  | cons b s ih =>
    exact tokens_trans (text_byte b (h b (by simp))) (ih fun c hc => h c (by simp [hc]))

theorem val_byte (n : Str) (as : List (Str × Str)) (a v : Str) (b : UInt8) (h : 32 ≤ b) :
    tokens (.val n as a 34 v) (escapeByte b) = some (.val n as a 34 (v ++ [b]), []) := by
  unfold escapeByte
  split
  · subst b; rfl
  split
  · subst b; rfl
  split
  · subst b; rfl
  split
  · subst b; rfl
  split
  · subst b; rfl
  · rename_i h1 h2 h3 h4 h5
    refine tokens_one ?_
    by_cases h8 : b = 32
    · subst b; rfl
    have h6 : ¬ Blank b := by
      rintro (rfl | rfl | rfl | rfl)
      · exact h8 rfl
      all_goals revert h; decide
    have h7 : TextChar b := Or.inr (Or.inr (Or.inr h))
    simp [step, h1, h2, h5, h6, h7]

theorem val_run (n : Str) (as : List (Str × Str)) (a v s : Str) (h : ∀ b ∈ s, 32 ≤ b) :
    tokens (.val n as a 34 v) (escape s) = some (.val n as a 34 (v ++ s), []) := by
  induction s generalizing v with
  | nil => simp [escape, tokens]
  | cons b s ih =>
    have := tokens_trans (val_byte n as a v b (h b (by simp)))
      (ih (v ++ [b]) fun c hc => h c (by simp [hc]))
    simpa [escape] using this

theorem name_run (n s : Str) (h : ∀ c ∈ s, NameChar c) :
    tokens (.name n) s = some (.name (n ++ s), []) := by
  induction s generalizing n with
  | nil => simp [tokens]
  | cons b s ih =>
    have := tokens_cons (m := .name n) (b := b) (by simp only [step, h b (by simp), if_true]; rfl)
      (ih (n ++ [b]) fun c hc => h c (by simp [hc]))
    simpa using this

theorem att_run (n : Str) (as : List (Str × Str)) (a s : Str) (h : ∀ c ∈ s, NameChar c) :
    tokens (.att n as a) s = some (.att n as (a ++ s), []) := by
  induction s generalizing a with
  | nil => simp [tokens]
  | cons b s ih =>
    have := tokens_cons (m := .att n as a) (b := b) (by simp only [step, h b (by simp), if_true]; rfl)
      (ih (a ++ [b]) fun c hc => h c (by simp [hc]))
    simpa using this

theorem not_nameChar_gt : ¬ NameChar 62 := by decide

theorem close_run (n s : Str) (h : ∀ c ∈ s, NameChar c) :
    tokens (.close n) s = some (.close (n ++ s), []) := by
  induction s generalizing n with
  | nil => simp [tokens]
  | cons b s ih =>
    have hb := h b (by simp)
    have hne : b ≠ 62 := by rintro rfl; exact not_nameChar_gt hb
    have := tokens_cons (m := .close n) (b := b)
      (by simp only [step, hne, false_and, if_false, hb, if_true]; rfl)
      (ih (n ++ [b]) fun c hc => h c (by simp [hc]))
    simpa using this

theorem IsName.chars {s : Str} (h : IsName s) : ∀ c ∈ s, NameChar c := by
  obtain ⟨b, r, rfl, hb, hr⟩ := h
  intro c hc
  rcases List.mem_cons.1 hc with rfl | hc
  · exact Or.inl hb
  · exact hr c hc

/-- the text of the attributes -/
def attText : List (Str × Str) → Str
  | [] => []
  | (k, v) :: as => [32] ++ k ++ [61, 34] ++ escape v ++ [34] ++ attText as

theorem one_att (n : Str) (as : List (Str × Str)) (sp : Bool) (k v : Str) (hk : IsName k)
    (hv : ∀ b ∈ v, 32 ≤ b) :
    tokens (.tag n as sp) ([32] ++ k ++ [61, 34] ++ escape v ++ [34]) =
      some (.tag n (as ++ [(k, v)]) false, []) := by
  obtain ⟨b, r, rfl, hb, hr⟩ := hk
  have e1 : tokens (.tag n as sp) [32] = some (.tag n as true, []) := rfl
  have hb1 : ¬ Blank b := by
    rintro (rfl | rfl | rfl | rfl) <;> exact absurd hb (by decide)
  have e2 : tokens (.tag n as true) (b :: r) = some (.att n as (b :: r), []) :=
    tokens_cons (m := .tag n as true) (b := b) (es := []) (es' := []) (by simp [step, hb1, hb])
      (att_run n as [b] r hr)
  have e3 : tokens (.att n as (b :: r)) [61, 34] = some (.val n as (b :: r) 34 [], []) := rfl
  have e4 := val_run n as (b :: r) [] v hv
  have e5 : tokens (.val n as (b :: r) 34 ([] ++ v)) [34] =
      some (.tag n (as ++ [(b :: r, [] ++ v)]) false, []) := rfl
  have := tokens_trans (tokens_trans (tokens_trans (tokens_trans e1 e2) e3) e4) e5
  simpa using this

theorem tag_atts (n : Str) (as bs : List (Str × Str)) (sp : Bool)
    (h : ∀ a ∈ bs, IsName a.1 ∧ ∀ b ∈ a.2, 32 ≤ b) :
    ∃ sp', tokens (.tag n as sp) (attText bs) = some (.tag n (as ++ bs) sp', []) := by
  induction bs generalizing as sp with
  | nil => exact ⟨sp, by simp [attText, tokens]⟩
  | cons a bs ih =>
    obtain ⟨k, v⟩ := a
    obtain ⟨h1, h2⟩ := h (k, v) (by simp)
    obtain ⟨sp', e⟩ := ih (as ++ [(k, v)]) false fun a ha => h a (by simp [ha])
    refine ⟨sp', ?_⟩
    have := tokens_trans (one_att n as sp k v h1 h2) e
    simpa [attText] using this

theorem not_blank_gt : ¬ Blank 62 := by decide
theorem not_name_gt : ¬ NameStart 62 := by decide
theorem not_nameChar_slash : ¬ NameChar 47 := by decide

/-- the start tag up to the final `>` or ` />` -/
theorem open_tag (name : Str) (as : List (Str × Str)) (hn : IsName name)
    (h : ∀ a ∈ as, IsName a.1 ∧ ∀ b ∈ a.2, 32 ≤ b) (m : Mode) (hm : m = .lt ∨ m = .prologLt) :
    (∀ s m' es, tokens (.text false) s = some (m', es) →
      tokens m (name ++ attText as ++ [62] ++ s) = some (m', .start name as :: es)) ∧
    (∀ s m' es, tokens (.text false) s = some (m', es) →
      tokens m (name ++ attText as ++ [32, 47, 62] ++ s) =
        some (m', .start name as :: .stop name :: es)) := by
  obtain ⟨b, r, rfl, hb, hr⟩ := hn
  have hb1 : b ≠ 47 ∧ b ≠ 63 := by
    constructor <;> (rintro rfl; exact absurd hb (by decide))
  have e1 : tokens m (b :: r) = some (.name (b :: r), []) := by
    refine tokens_cons (es := []) (es' := []) ?_ (name_run [b] r hr)
    rcases hm with rfl | rfl
    · simp [step, hb, hb1.1]
    · simp [step, hb, hb1.2]
  cases as with
  | nil =>
    refine ⟨?_, ?_⟩
    · intro s m' es hs
      have e2 : tokens (.name (b :: r)) [62] = some (.text false, [.start (b :: r) []]) := by
        refine tokens_one ?_
        simp [step, not_nameChar_gt, not_blank_gt]
      have := tokens_trans (tokens_trans e1 e2) hs
      simpa [attText] using this
    · intro s m' es hs
      have e2 : tokens (.name (b :: r)) [32, 47, 62] =
          some (.text false, [.start (b :: r) [], .stop (b :: r)]) := rfl
      have := tokens_trans (tokens_trans e1 e2) hs
      simpa [attText] using this
  | cons a as =>
    obtain ⟨k, v⟩ := a
    obtain ⟨h1, h2⟩ := h (k, v) (by simp)
    have e2 : tokens (.name (b :: r)) ([32] ++ k ++ [61, 34] ++ escape v ++ [34]) =
        some (.tag (b :: r) [(k, v)] false, []) := by
      -- the first blank leads to the same place
      have := one_att (b :: r) [] false k v h1 h2
      have hs : ∀ x, tokens (.name (b :: r)) (32 :: x) = tokens (.tag (b :: r) [] false) (32 :: x) :=
        fun _ => rfl
      simp only [List.cons_append, List.nil_append] at this ⊢
      rw [hs]; exact this
    obtain ⟨sp, e3⟩ := tag_atts (b :: r) [(k, v)] as false fun a ha => h a (by simp [ha])
    have e4 := tokens_trans (tokens_trans e1 e2) e3
    refine ⟨?_, ?_⟩
    · intro s m' es hs
      have e5 : tokens (.tag (b :: r) ([(k, v)] ++ as) sp) [62] =
          some (.text false, [.start (b :: r) ([(k, v)] ++ as)]) := by
        refine tokens_one ?_
        simp [step, not_blank_gt, not_name_gt]
      have := tokens_trans (tokens_trans e4 e5) hs
      simpa [attText] using this
    · intro s m' es hs
      have e5 : tokens (.tag (b :: r) ([(k, v)] ++ as) sp) [32, 47, 62] =
          some (.text false, [.start (b :: r) ([(k, v)] ++ as), .stop (b :: r)]) := rfl
      have := tokens_trans (tokens_trans e4 e5) hs
      simpa [attText] using this

theorem end_tag (name : Str) (hn : IsName name) :
    tokens (.text false) ([60, 47] ++ name ++ [62]) = some (.text false, [.stop name]) := by
  have e1 : tokens (.text false) [60, 47] = some (.close [], []) := rfl
  have e2 := close_run [] name (IsName.chars hn)
  have hne : name ≠ [] := by obtain ⟨b, r, rfl, -⟩ := hn; simp
  have e3 : tokens (.close ([] ++ name)) [62] = some (.text false, [.stop name]) := by
    refine tokens_one ?_
    simp [step, hne]
  have := tokens_trans (tokens_trans e1 e2) e3
  simpa using this

/-! ### what is written -/

mutual
/-- the text of a tree -/
def render : Tree → Str
  | .text s => escape s
  | .elem name atts [] => [60] ++ name ++ attText atts ++ [32, 47, 62]
  | .elem name atts (t :: ts) =>
    [60] ++ name ++ attText atts ++ [62] ++ (render t ++ renderAll ts) ++ [60, 47] ++ name ++ [62]
/-- the text of a list of trees -/
def renderAll : List Tree → Str
  | [] => []
  | t :: ts => render t ++ renderAll ts
end

theorem bytewise_append (a b : List Event) : bytewise (a ++ b) = bytewise a ++ bytewise b := by
  induction a with
  | nil => rfl
  | cons e a ih => cases e <;> simp [bytewise, ih]

theorem elem_tokens (name : Str) (atts : List (Str × Str)) (body : Str) (es : List Event)
    (hn : IsName name) (h : ∀ a ∈ atts, IsName a.1 ∧ ∀ b ∈ a.2, 32 ≤ b)
    (hb : tokens (.text false) body = some (.text false, es)) (m : Mode)
    (hm : m = .text false ∨ m = .prolog) :
    tokens m ([60] ++ name ++ attText atts ++ [62] ++ body ++ [60, 47] ++ name ++ [62]) =
      some (.text false, .start name atts :: es ++ [.stop name]) := by
  have e1 := tokens_trans hb (end_tag name hn)
  rcases hm with rfl | rfl
  · have e2 := (open_tag name atts hn h .lt (Or.inl rfl)).1 _ _ _ e1
    have e0 : tokens (.text false) [60] = some (.lt, []) := rfl
    have := tokens_trans e0 e2
    simpa using this
  · have e2 := (open_tag name atts hn h .prologLt (Or.inr rfl)).1 _ _ _ e1
    have e0 : tokens .prolog [60] = some (.prologLt, []) := rfl
    have := tokens_trans e0 e2
    simpa using this

theorem empty_tokens (name : Str) (atts : List (Str × Str))
    (hn : IsName name) (h : ∀ a ∈ atts, IsName a.1 ∧ ∀ b ∈ a.2, 32 ≤ b) (m : Mode)
    (hm : m = .text false ∨ m = .prolog) :
    tokens m ([60] ++ name ++ attText atts ++ [32, 47, 62]) =
      some (.text false, [.start name atts, .stop name]) := by
  have e1 : tokens (.text false) [] = some (.text false, []) := rfl
  rcases hm with rfl | rfl
  · have e2 := (open_tag name atts hn h .lt (Or.inl rfl)).2 _ _ _ e1
    have e0 : tokens (.text false) [60] = some (.lt, []) := rfl
    have := tokens_trans e0 e2
    simpa using this
  · have e2 := (open_tag name atts hn h .prologLt (Or.inr rfl)).2 _ _ _ e1
    have e0 : tokens .prolog [60] = some (.prologLt, []) := rfl
    have := tokens_trans e0 e2
    simpa using this

mutual
theorem render_tokens : (t : Tree) → t.Plain →
    tokens (.text false) (render t) = some (.text false, bytewise (events t))
  | .text s, h => by
    simp only [render, events, bytewise, List.append_nil]
    exact text_run s h
  | .elem name atts [], h => by
    simp only [render, events, eventsAll, List.append_nil, List.cons_append, List.nil_append, bytewise]
    have := empty_tokens name atts h.1 h.2.1 (.text false) (Or.inl rfl)
    simpa using this
  | .elem name atts (t :: ts), h => by
    have e := tokens_trans (render_tokens t h.2.2.2.1) (renderAll_tokens ts h.2.2.2.2)
    simp only [render, events, eventsAll, List.cons_append, bytewise, bytewise_append]
    have := elem_tokens name atts _ _ h.1 h.2.1 e (.text false) (Or.inl rfl)
    simpa [bytewise] using this
theorem renderAll_tokens : (ts : List Tree) → Tree.PlainAll ts →
    tokens (.text false) (renderAll ts) = some (.text false, bytewise (eventsAll ts))
  | [], _ => rfl
  | t :: ts, h => by
    simp only [renderAll, eventsAll, bytewise_append]
    exact tokens_trans (render_tokens t h.1) (renderAll_tokens ts h.2)
end

theorem root_tokens (name : Str) (atts : List (Str × Str)) (sub : List Tree)
    (h : (Tree.elem name atts sub).Plain) :
    tokens .prolog (render (.elem name atts sub)) =
      some (.text false, bytewise (events (.elem name atts sub))) := by
  cases sub with
  | nil =>
    simp only [render, events, eventsAll, List.append_nil, List.cons_append, List.nil_append, bytewise]
    have := empty_tokens name atts h.1 h.2.1 .prolog (Or.inr rfl)
    simpa using this
  | cons t ts =>
    have e := tokens_trans (render_tokens t h.2.2.2.1) (renderAll_tokens ts h.2.2.2.2)
    simp only [render, events, eventsAll, List.cons_append, bytewise, bytewise_append]
    have := elem_tokens name atts _ _ h.1 h.2.1 e .prolog (Or.inr rfl)
    simpa [bytewise] using this

end Libube.Xml

import Verif.Lemmas.XmlWrite

/-! # Lemmas: open elements -/

namespace Libube.Xml

open Libube Libube.CString Libube.XmlSpec Libube.OrderSpec

/-- start tags minus end tags -/
def bal : List Event → Int
  | [] => 0
  | .start _ _ :: es => bal es + 1
  | .stop _ :: es => bal es - 1
  | _ :: es => bal es

theorem bal_append (a b : List Event) : bal (a ++ b) = bal a + bal b := by
  induction a with
  | nil => simp [bal]
  | cons e a ih => cases e <;> simp only [List.cons_append, bal, ih] <;> omega

/-- number of open elements -/
def height (s : State) : Int :=
  match s.stack with
  | none => 0
  | some st => st.length

theorem handle_height {n : Nat} {s s' : State} {e : Event} (h : handle n s e = .ok s') :
    height s' = height s + bal [e] := by
  obtain ⟨es, root, stack⟩ := s
  cases e with
  | start name atts =>
    simp only [handle, startElement] at h
    cases ha : setAttrs n [] atts with
    | ok a =>
      rw [ha, Outcome.bind_ok] at h
      match stack with
      | none =>
        simp only [Outcome.ok.injEq] at h
        subst h; rfl
      | some [] => cases h
      | some (top :: st) =>
        simp only at h
        cases hp : pushData es top (.child es.length) with
        | ok es' =>
          rw [hp, Outcome.bind_ok] at h
          simp only [Outcome.ok.injEq] at h
          subst h; simp [height, bal]
        | _ => rw [hp] at h; cases h
    | _ => rw [ha] at h; cases h
  | stop name =>
    simp only [handle, endElement] at h
    match stack with
    | none => cases h
    | some [] => cases h
    | some (top :: st) =>
      simp only at h
      cases he : es[top]? with
      | none => rw [he] at h; cases h
      | some e =>
        rw [he] at h
        simp only at h
        cases hq : neq n (.chars e.name) (.chars name) with
        | ok b =>
          rw [hq, Outcome.bind_ok] at h
          cases b with
          | true => cases h
          | false =>
            simp only [Bool.false_eq_true, if_false, Outcome.ok.injEq] at h
            subst h; simp [height, bal]
        | _ => rw [hq] at h; cases h
  | text str =>
    simp only [handle, characterData] at h
    match stack with
    | none => cases h
    | some [] => cases h
    | some (top :: st) =>
      simp only at h
      cases hp : pushData es top (.text str) with
      | ok es' =>
        rw [hp, Outcome.bind_ok] at h
        simp only [Outcome.ok.injEq] at h
        subst h; simp [height, bal]
      | _ => rw [hp] at h; cases h
  | other str =>
    simp only [handle, defaultHandler] at h
    split at h
    · simp only [Outcome.ok.injEq] at h
      subst h; simp [height, bal]
    · cases h

theorem handleAll_height {n : Nat} {s s' : State} {es : List Event} (h : handleAll n s es = .ok s') :
    height s' = height s + bal es := by
  induction es generalizing s with
  | nil =>
    simp only [handleAll, Outcome.ok.injEq] at h
    subst h; simp [bal]
  | cons e es ih =>
    simp only [handleAll] at h
    cases he : handle n s e with
    | ok s1 =>
      rw [he, Outcome.bind_ok] at h
      rw [ih h, handle_height he, show e :: es = [e] ++ es from rfl, bal_append]
      omega
    | _ => rw [he] at h; cases h

/-- a prefix of two lists put together -/
theorem prefix_cases {α} {p a b q : List α} (h : p ++ q = a ++ b) :
    (∃ q', p ++ q' = a) ∨ ∃ p', p = a ++ p' ∧ p' ++ q = b := by
  rcases List.append_eq_append_iff.1 h with ⟨c, h1, h2⟩ | ⟨c, h1, h2⟩
  · exact Or.inl ⟨c, h1.symm⟩
  · exact Or.inr ⟨c, h1, h2.symm⟩

/-- within an element there is at least one more start tag -/
theorem bal_open (name : Str) (atts : List (Str × Str)) (sub : List Tree)
    (h2 : ∀ p q, p ++ q = eventsAll sub → 0 ≤ bal p)
    (p q : List Event) (h : p ++ q = events (.elem name atts sub)) (hq : q ≠ []) :
    if p = [] then bal p = 0 else 0 < bal p := by
  cases p with
  | nil => simp [bal]
  | cons e p =>
    rw [if_neg (by simp)]
    simp only [events, List.cons_append, List.cons.injEq] at h
    obtain ⟨rfl, h⟩ := h
    simp only [bal]
    rcases prefix_cases h with ⟨q', h⟩ | ⟨p', rfl, hp⟩
    · have := h2 p q' h
      omega
    · match p', hp with
      | [], _ =>
        have := h2 (eventsAll sub) [] (by simp)
        rw [List.append_nil]
        omega
      | [_], h =>
        simp only [List.cons_append, List.nil_append, List.cons.injEq] at h
        exact absurd h.2 hq
      | _ :: _ :: _, h => simp at h

mutual
theorem bal_tree : (t : Tree) → bal (events t) = 0 ∧ ∀ p q, p ++ q = events t → 0 ≤ bal p
  | .text s => by
    refine ⟨rfl, ?_⟩
    intro p q h
    simp only [events] at h
    match p, h with
    | [], _ => exact Int.le_refl _
    | [e], h =>
      simp only [List.cons_append, List.cons.injEq] at h
      rw [h.1]; exact Int.le_refl _
    | _ :: _ :: _, h => simp at h
  | .elem name atts sub => by
    obtain ⟨h1, h2⟩ := bal_forest sub
    refine ⟨by simp only [events, List.cons_append, bal, bal_append, h1]; rfl, ?_⟩
    intro p q h
    by_cases hq : q = []
    · subst hq
      rw [List.append_nil] at h
      subst h
      simp only [events, List.cons_append, bal, bal_append, h1]; decide
    · have := bal_open name atts sub h2 p q h hq
      split at this <;> omega
theorem bal_forest : (ts : List Tree) →
    bal (eventsAll ts) = 0 ∧ ∀ p q, p ++ q = eventsAll ts → 0 ≤ bal p
  | [] => by
    refine ⟨rfl, ?_⟩
    intro p q h
    simp only [eventsAll, List.append_eq_nil_iff] at h
    rw [h.1]; exact Int.le_refl _
  | t :: ts => by
    obtain ⟨h1, h2⟩ := bal_tree t
    obtain ⟨h3, h4⟩ := bal_forest ts
    refine ⟨by simp [eventsAll, bal_append, h1, h3], ?_⟩
    intro p q h
    simp only [eventsAll] at h
    rcases prefix_cases h with ⟨q', h⟩ | ⟨p', rfl, hp⟩
    · exact h2 p q' h
    · rw [bal_append, h1]
      have := h4 p' q hp
      omega
end

theorem bytewise_texts (s : Str) (es : List Event) :
    bytewise (s.map (fun b => Event.text [b]) ++ es) = s.map (fun b => Event.text [b]) ++ bytewise es := by
  induction s with
  | nil => rfl
  | cons b s ih => simp [bytewise, ih]

theorem bytewise_idem (es : List Event) : bytewise (bytewise es) = bytewise es := by
  induction es with
  | nil => rfl
  | cons e es ih => cases e <;> simp [bytewise, ih, bytewise_texts]

theorem bytewise_no_empty (es : List Event) : .text [] ∉ bytewise es := by
  induction es with
  | nil => simp [bytewise]
  | cons e es ih => cases e <;> simp [bytewise, ih]

end Libube.Xml

import Verif.Lemmas.XmlTrip

/-! # Lemmas: what the XML writer writes for a tree, and how text can be divided -/

namespace Libube.Xml

open Libube Libube.CString Libube.XmlSpec Libube.OrderSpec

/-! ### the writer -/

theorem nameChar_ne_zero {b : UInt8} (h : NameChar b) : b ≠ 0 := by
  rintro rfl; revert h; decide

theorem name_no_nul {s : Str} (h : IsName s) : (0 : UInt8) ∉ s :=
  fun h0 => nameChar_ne_zero (IsName.chars h 0 h0) rfl

theorem cstr_of_no_nul {s : Str} (h : (0 : UInt8) ∉ s) : cstr s = s := by
  unfold cstr
  rw [List.takeWhile_eq_self_iff]
  intro b hb
  have : b ≠ 0 := fun e => h (e ▸ hb)
  simpa using this

theorem writeAttrs_spec (as : List (Str × Str)) (h : ∀ a ∈ as, IsName a.1) :
    writeAttrs (as.map fun a => (Val.chars a.1, Val.chars a.2)) = .ok (attText as) := by
  induction as with
  | nil => rfl
  | cons a as ih =>
    obtain ⟨k, v⟩ := a
    simp only [List.map_cons, writeAttrs, strOf, escapeVal, Outcome.bind_ok,
      cstr_of_no_nul (name_no_nul (h (k, v) (by simp))), ih fun a ha => h a (by simp [ha])]
    rfl

theorem lex_asymm {s t : Str} (h : List.Lex (fun x y : UInt8 => x.toNat < y.toNat) s t)
    (h' : List.Lex (fun x y : UInt8 => x.toNat < y.toNat) t s) : False := by
  induction h with
  | nil => cases h'
  | cons _ ih =>
    cases h' with
    | cons h2 => exact ih h2
    | rel h2 => exact absurd h2 (Nat.lt_irrefl _)
  | rel h1 =>
    cases h' with
    | cons h2 => exact absurd h1 (Nat.lt_irrefl _)
    | rel h2 => exact absurd h1 (by omega)

theorem lex_ne {s t : Str} (h : List.Lex (fun x y : UInt8 => x.toNat < y.toNat) s t) : s ≠ t := by
  rintro rfl; exact lex_asymm h h

theorem ordered_atts {as : List (Str × Str)} {ps : List (Val × Val)}
    (hp : ps.Perm (as.map fun a => (Val.chars a.1, Val.chars a.2)))
    (hs : ps.Pairwise fun p q => KeyLt p.1 q.1)
    (ho : as.Pairwise (fun a b => List.Lex (fun x y : UInt8 => x.toNat < y.toNat) a.1 b.1)) :
    ps = as.map fun a => (Val.chars a.1, Val.chars a.2) := by
  have ho' : (as.map fun a => (Val.chars a.1, Val.chars a.2)).Pairwise
      (fun p q => KeyLt p.1 q.1) := by
    rw [List.pairwise_map]; exact ho
  refine List.Perm.eq_of_pairwise (le := fun p q => KeyLt p.1 q.1) ?_ hs ho' hp
  intro p q hpm hqm h1 h2
  have : ∀ p ∈ ps, ∃ k, p.1 = Val.chars k := by
    intro p hpp
    obtain ⟨a, -, rfl⟩ := List.mem_map.1 (hp.subset hpp)
    exact ⟨_, rfl⟩
  obtain ⟨k, hk⟩ := this p hpm
  obtain ⟨k', hk'⟩ := this q (hp.symm.subset hqm)
  rw [hk, hk'] at h1 h2
  exact (lex_asymm h1 h2).elim

theorem atts_unique {as bs : List (Str × Str)} {v : Val} (ha : ShowsAtts as v) (hb : ShowsAtts bs v)
    (ho : as.Pairwise (fun a b => List.Lex (fun x y : UInt8 => x.toNat < y.toNat) a.1 b.1))
    (ho' : bs.Pairwise (fun a b => List.Lex (fun x y : UInt8 => x.toNat < y.toNat) a.1 b.1)) :
    as = bs := by
  rcases ha with ⟨rfl, rfl⟩ | ⟨-, ps, rfl, hp, hs⟩
  · rcases hb with ⟨rfl, -⟩ | ⟨-, ps, h, -⟩
    · rfl
    · cases h
  · rcases hb with ⟨-, h⟩ | ⟨-, qs, h, hq, hs'⟩
    · cases h
    · injection h with h
      subst h
      have := (ordered_atts hp hs ho).symm.trans (ordered_atts hq hs' ho')
      refine List.map_injective_iff.2 ?_ this
      intro x y h
      simp only [Prod.mk.injEq, Val.chars.injEq] at h
      exact Prod.ext h.1 h.2

theorem writeAttr_spec (as : List (Str × Str)) (v : Val) (hv : ShowsAtts as v)
    (h : ∀ a ∈ as, IsName a.1)
    (ho : as.Pairwise (fun a b => List.Lex (fun x y : UInt8 => x.toNat < y.toNat) a.1 b.1)) :
    writeAttr v = .ok (attText as) := by
  rcases hv with ⟨rfl, rfl⟩ | ⟨-, ps, rfl, hp, hs⟩
  · rfl
  · rw [ordered_atts hp hs ho]
    exact writeAttrs_spec as h

theorem neq_text (n : Nat) : neq (n + 2) (.chars textWord) (.chars textWord) = .ok false :=
  neq_self_chars n _

/-- a string is not taken for an element -/
theorem writeElem_string (n : Nat) (s : Str) : writeElem (n + 3) (.chars s) = .ok none := by
  unfold writeElem
  by_cases h : (Val.chars s).size = 4
  · have hl : s.length = 4 := by simpa [Val.size, Val.type, Val.elems] using h
    obtain ⟨a, b, c, d, rfl⟩ : ∃ a b c d, s = [a, b, c, d] := by
      match s, hl with
      | [a, b, c, d], _ => exact ⟨a, b, c, d, rfl⟩
    rw [if_neg (by simp [h])]
    have : neq (n + 2) (.char c) (.chars textWord) = .ok true := by
      simp [neq, Val.type]
    simp only [Val.elems, List.map_cons, List.map_nil, this, Outcome.bind_ok, if_true]
  · rw [if_pos h]

theorem writeData_spec (f : Val → Outcome (Option Bytes)) (ts : List Tree) (vs : List Val)
    (hl : ts.length = vs.length)
    (h : ∀ (i : Nat) (h : i < ts.length) (h' : i < vs.length),
      (f vs[i] = .ok (some (render ts[i]))) ∨
      (f vs[i] = .ok none ∧ escapeVal vs[i] = .ok (render ts[i]))) :
    writeData f vs = .ok (renderAll ts) := by
  induction ts generalizing vs with
  | nil =>
    obtain rfl : vs = [] := List.eq_nil_of_length_eq_zero (by simpa using hl.symm)
    rfl
  | cons t ts ih =>
    cases vs with
    | nil => simp at hl
    | cons v vs =>
      have e := ih vs (by simpa using hl) (fun i h1 h2 => by
        have := h (i + 1) (by simpa using h1) (by simpa using h2)
        simpa using this)
      have h0 := h 0 (by simp) (by simp)
      simp only [List.getElem_cons_zero] at h0
      simp only [writeData, renderAll]
      rcases h0 with h0 | ⟨h0, h1⟩
      · rw [h0, Outcome.bind_ok]
        simp only [Outcome.bind_ok, e]
      · rw [h0, Outcome.bind_ok]
        simp only [h1, Outcome.bind_ok, e]

theorem plainAll_get {ts : List Tree} (h : Tree.PlainAll ts) (i : Nat) (hi : i < ts.length) :
    ts[i].Plain := by
  induction ts generalizing i with
  | nil => simp at hi
  | cons t ts ih =>
    cases i with
    | zero => exact h.1
    | succ i => exact ih h.2 i (by simpa using hi)

theorem depthAll_get (ts : List Tree) (i : Nat) (hi : i < ts.length) :
    ts[i].depth ≤ Tree.depthAll ts := by
  induction ts generalizing i with
  | nil => simp at hi
  | cons t ts ih =>
    simp only [Tree.depthAll]
    cases i with
    | zero => exact Nat.le_max_left _ _
    | succ i => exact Nat.le_trans (ih i (by simpa using hi)) (Nat.le_max_right _ _)

/-- what the writer writes -/
theorem writeElem_spec {t : Tree} {v : Val} (hs : Shows t v) :
    ∀ n, t.Plain → t.depth + 2 ≤ n →
    (writeElem (n + 1) v = .ok (some (render t))) ∨
      (writeElem (n + 1) v = .ok none ∧ escapeVal v = .ok (render t) ∧ ∃ s, t = .text s) := by
  induction hs with
  | text s =>
    intro n _ hn
    obtain ⟨n, rfl⟩ : ∃ k, n = k + 2 := ⟨n - 2, by simp [Tree.depth] at hn; omega⟩
    exact Or.inr ⟨writeElem_string n s, rfl, s, rfl⟩
  | empty name atts a ha =>
    intro n hp hn
    obtain ⟨n, rfl⟩ : ∃ k, n = k + 2 := ⟨n - 2, by omega⟩
    refine Or.inl ?_
    have e := writeAttr_spec atts a ha (fun x hx => (hp.2.1 x hx).1) hp.2.2.1
    unfold writeElem
    rw [if_neg (by simp [Val.size, Val.type, Val.elems])]
    simp only [Val.elems]
    rw [show ([116, 101, 120, 116] : List UInt8) = textWord from rfl, neq_text n, Outcome.bind_ok]
    simp only [strOf, Outcome.bind_ok, cstr_of_no_nul (name_no_nul hp.1), e, Val.defined, render]
    rfl
  | elem name atts sub a vs ha hne hl hsub ih =>
    intro n hp hn
    simp only [Tree.depth] at hn
    obtain ⟨n, rfl⟩ : ∃ k, n = k + 3 := ⟨n - 3, by omega⟩
    refine Or.inl ?_
    have e := writeAttr_spec atts a ha (fun x hx => (hp.2.1 x hx).1) hp.2.2.1
    have e2 : writeData (writeElem (n + 3)) vs = .ok (renderAll sub) := by
      refine writeData_spec _ sub vs hl ?_
      intro i h h'
      have hd := depthAll_get sub i h
      rcases ih i h h' (n + 2) (plainAll_get hp.2.2.2 i h) (by omega) with h1 | ⟨h1, h2, -⟩
      · exact Or.inl h1
      · exact Or.inr ⟨h1, h2⟩
    unfold writeElem
    rw [if_neg (by simp [Val.size, Val.type, Val.elems])]
    simp only [Val.elems]
    rw [show ([116, 101, 120, 116] : List UInt8) = textWord from rfl, neq_text (n + 1), Outcome.bind_ok]
    simp only [strOf, Outcome.bind_ok, cstr_of_no_nul (name_no_nul hp.1), e, Val.defined,
      dataItems, Val.items, Val.type, Val.elems, if_true, e2]
    cases sub with
    | nil => exact absurd rfl hne
    | cons t ts => simp [render, renderAll]

/-! ### no newline in what is written -/

theorem escapeByte_lines {b c : UInt8} (hb : b ≠ 10) (h : c ∈ escapeByte b) : c ≠ 10 := by
  unfold escapeByte at h
  rintro rfl
  repeat' split at h
  all_goals first | (simp at h; done) | skip
  · simp at h; exact hb h.symm

theorem escape_lines {s : Str} (h : (10 : UInt8) ∉ s) : (10 : UInt8) ∉ escape s := by
  induction s with
  | nil => simp [escape]
  | cons b s ih =>
    simp only [escape, List.mem_append, not_or]
    refine ⟨fun hc => escapeByte_lines (fun e => h (by simp [e])) hc rfl, ih fun hh => h (by simp [hh])⟩

theorem name_lines {s : Str} (h : IsName s) : (10 : UInt8) ∉ s :=
  fun h0 => absurd (IsName.chars h 10 h0) (by decide)

theorem attText_lines (as : List (Str × Str)) (h : ∀ a ∈ as, IsName a.1 ∧ ∀ b ∈ a.2, 32 ≤ b) :
    (10 : UInt8) ∉ attText as := by
  induction as with
  | nil => simp [attText]
  | cons a as ih =>
    obtain ⟨k, v⟩ := a
    obtain ⟨h1, h2⟩ := h (k, v) (by simp)
    have h3 : (10 : UInt8) ∉ v := fun hh => absurd (h2 10 hh) (by decide)
    simp only [attText, List.mem_append, not_or]
    refine ⟨⟨⟨⟨⟨by decide, name_lines h1⟩, by decide⟩, escape_lines h3⟩, by decide⟩,
      ih fun a ha => h a (by simp [ha])⟩

mutual
theorem render_lines : (t : Tree) → t.Plain → (10 : UInt8) ∉ render t
  | .text s, h => by
    simp only [render]
    refine escape_lines fun hh => ?_
    rcases h 10 hh with h | h
    · exact absurd h (by decide)
    · exact absurd h (by decide)
  | .elem name atts [], h => by
    simp only [render, List.mem_append, not_or]
    exact ⟨⟨⟨by decide, name_lines h.1⟩, attText_lines atts h.2.1⟩, by decide⟩
  | .elem name atts (t :: ts), h => by
    simp only [render, List.mem_append, not_or]
    exact ⟨⟨⟨⟨⟨⟨⟨by decide, name_lines h.1⟩, attText_lines atts h.2.1⟩, by decide⟩,
      ⟨render_lines t h.2.2.2.1, renderAll_lines ts h.2.2.2.2⟩⟩, by decide⟩, name_lines h.1⟩, by decide⟩
theorem renderAll_lines : (ts : List Tree) → Tree.PlainAll ts → (10 : UInt8) ∉ renderAll ts
  | [], _ => by simp [renderAll]
  | t :: ts, h => by
    simp only [renderAll, List.mem_append, not_or]
    exact ⟨render_lines t h.1, renderAll_lines ts h.2⟩
end

mutual
theorem plain_wf : (t : Tree) → t.Plain → t.Wf
  | .text _, _ => trivial
  | .elem name atts sub, h => ⟨name_no_nul h.1, fun a ha => name_no_nul (h.2.1 a ha).1,
      h.2.2.1.imp lex_ne, plainAll_wf sub h.2.2.2⟩
theorem plainAll_wf : (ts : List Tree) → Tree.PlainAll ts → Tree.WfAll ts
  | [], _ => trivial
  | t :: ts, h => ⟨plain_wf t h.1, plainAll_wf ts h.2⟩
end

/-! ### dividing text -/

mutual
/-- text in single bytes -/
def chop : Tree → List Tree
  | .text s => s.map fun b => .text [b]
  | .elem name atts sub => [.elem name atts (chopAll sub)]
/-- text in single bytes -/
def chopAll : List Tree → List Tree
  | [] => []
  | t :: ts => chop t ++ chopAll ts
end

theorem eventsAll_append (a b : List Tree) : eventsAll (a ++ b) = eventsAll a ++ eventsAll b := by
  induction a with
  | nil => rfl
  | cons t a ih => simp [eventsAll, ih]

theorem eventsAll_texts (s : Str) :
    eventsAll (s.map fun b => Tree.text [b]) = s.map fun b => Event.text [b] := by
  induction s with
  | nil => rfl
  | cons b s ih => simp [eventsAll, events, ih]

mutual
theorem chop_events : (t : Tree) → eventsAll (chop t) = bytewise (events t)
  | .text s => by simp only [chop, events, bytewise, List.append_nil]; exact eventsAll_texts s
  | .elem name atts sub => by
    simp only [chop, eventsAll, events, List.append_nil, List.cons_append, bytewise, bytewise_append,
      chopAll_events sub]
theorem chopAll_events : (ts : List Tree) → eventsAll (chopAll ts) = bytewise (eventsAll ts)
  | [] => rfl
  | t :: ts => by
    simp only [chopAll, eventsAll_append, eventsAll, bytewise_append, chop_events t, chopAll_events ts]
end

theorem wfAll_append (a b : List Tree) : Tree.WfAll (a ++ b) ↔ Tree.WfAll a ∧ Tree.WfAll b := by
  induction a with
  | nil => simp [Tree.WfAll]
  | cons t a ih => simp [Tree.WfAll, ih, and_assoc]

theorem depthAll_append (a b : List Tree) :
    Tree.depthAll (a ++ b) = max (Tree.depthAll a) (Tree.depthAll b) := by
  induction a with
  | nil => simp [Tree.depthAll]
  | cons t a ih => simp [Tree.depthAll, ih, Nat.max_assoc]

mutual
theorem chop_wf : (t : Tree) → (Tree.WfAll (chop t) ↔ t.Wf)
  | .text s => by
    simp only [chop, Tree.Wf, iff_true]
    induction s with
    | nil => trivial
    | cons b s ih => exact ⟨trivial, ih⟩
  | .elem name atts sub => by
    simp only [chop, Tree.WfAll, Tree.Wf, and_true, chopAll_wf sub]
theorem chopAll_wf : (ts : List Tree) → (Tree.WfAll (chopAll ts) ↔ Tree.WfAll ts)
  | [] => Iff.rfl
  | t :: ts => by simp only [chopAll, wfAll_append, Tree.WfAll, chop_wf t, chopAll_wf ts]
end

mutual
theorem chop_depth : (t : Tree) → Tree.depthAll (chop t) = t.depth
  | .text s => by
    simp only [chop, Tree.depth]
    induction s with
    | nil => rfl
    | cons b s ih => simpa [Tree.depthAll, Tree.depth] using ih
  | .elem name atts sub => by
    simp only [chop, Tree.depthAll, Tree.depth, chopAll_depth sub, Nat.max_eq_left, Nat.zero_le]
theorem chopAll_depth : (ts : List Tree) → Tree.depthAll (chopAll ts) = Tree.depthAll ts
  | [] => rfl
  | t :: ts => by simp only [chopAll, depthAll_append, Tree.depthAll, chop_depth t, chopAll_depth ts]
end

/-- text only in single bytes -/
inductive Chopped : List Tree → Prop
  | nil : Chopped []
  | text (b ts) : Chopped ts → Chopped (.text [b] :: ts)
  | elem (name atts sub ts) : Chopped sub → Chopped ts → Chopped (.elem name atts sub :: ts)

theorem Chopped.append {a b : List Tree} (ha : Chopped a) (hb : Chopped b) : Chopped (a ++ b) := by
  induction ha with
  | nil => exact hb
  | text c ts _ ih => exact .text c _ ih
  | elem n as sub ts h1 _ _ ih => exact .elem n as sub _ h1 ih

mutual
theorem chop_chopped : (t : Tree) → Chopped (chop t)
  | .text s => by
    simp only [chop]
    induction s with
    | nil => exact .nil
    | cons b s ih => exact .text b _ ih
  | .elem name atts sub => .elem name atts _ _ (chopAll_chopped sub) .nil
theorem chopAll_chopped : (ts : List Tree) → Chopped (chopAll ts)
  | [] => .nil
  | t :: ts => (chop_chopped t).append (chopAll_chopped ts)
end

/-- nothing, or an end tag first -/
def Ends (r : List Event) : Prop := r = [] ∨ ∃ n r', r = .stop n :: r'

/-- reports with the bytes of a forest are the reports of a forest with text divided otherwise -/
theorem divided {ts : List Tree} (hc : Chopped ts) :
    ∀ (es r : List Event), Ends r → .text [] ∉ es → bytewise es = eventsAll ts ++ r →
      ∃ ts' es', es = eventsAll ts' ++ es' ∧ bytewise es' = r ∧ chopAll ts' = ts := by
  induction hc with
  | nil => intro es r _ _ h; exact ⟨[], es, rfl, h, rfl⟩
  | text b ts hts ih =>
    intro es r hr hne h
    simp only [eventsAll, events, List.cons_append, List.nil_append] at h
    cases es with
    | nil => cases h
    | cons e es =>
      cases e with
      | text s =>
        cases s with
        | nil => exact absurd (List.mem_cons_self) hne
        | cons c s =>
          simp only [bytewise, List.map_cons, List.cons_append, List.cons.injEq, Event.text.injEq,
            and_true] at h
          obtain ⟨rfl, h⟩ := h
          cases s with
          | nil =>
            obtain ⟨ts', es', h1, h2, h3⟩ := ih es r hr (fun hh => hne (List.mem_cons_of_mem _ hh)) h
            exact ⟨.text [c] :: ts', es', by simp [eventsAll, events, h1], h2, by simp [chopAll, chop, h3]⟩
          | cons d s =>
            obtain ⟨ts', es', h1, h2, h3⟩ := ih (.text (d :: s) :: es) r hr (by
              intro hh
              rcases List.mem_cons.1 hh with hh | hh
              · cases hh
              · exact hne (List.mem_cons_of_mem _ hh)) h
            cases ts' with
            | nil =>
              simp only [eventsAll, List.nil_append] at h1
              rw [← h1] at h2
              rcases hr with rfl | ⟨n, r', rfl⟩
              · simp [bytewise] at h2
              · simp [bytewise] at h2
            | cons t ts' =>
              cases t with
              | elem n as sub => simp [eventsAll, events] at h1
              | text s' =>
                simp only [eventsAll, events, List.cons_append, List.nil_append, List.cons.injEq,
                  Event.text.injEq] at h1
                obtain ⟨rfl, h1⟩ := h1
                refine ⟨.text (c :: d :: s) :: ts', es', by simp [eventsAll, events, h1], h2, ?_⟩
                simp only [chopAll, chop, List.map_cons, List.cons_append] at h3 ⊢
                rw [h3]
      | _ => simp [bytewise] at h
  | elem name atts sub ts hsub hts ih1 ih2 =>
    intro es r hr hne h
    simp only [eventsAll, events, List.cons_append, List.append_assoc, List.nil_append] at h
    cases es with
    | nil => cases h
    | cons e es =>
      cases e with
      | start n as =>
        simp only [bytewise, List.cons.injEq, Event.start.injEq] at h
        obtain ⟨⟨rfl, rfl⟩, h⟩ := h
        have hne' : .text [] ∉ es := fun hh => hne (List.mem_cons_of_mem _ hh)
        obtain ⟨sub', es1, h1, h2, h3⟩ := ih1 es _ (Or.inr ⟨_, _, rfl⟩) hne' h
        have hne1 : .text [] ∉ es1 := fun hh => hne' (by rw [h1]; exact List.mem_append_right _ hh)
        cases es1 with
        | nil => cases h2
        | cons e es1 =>
          cases e with
          | stop m =>
            simp only [bytewise, List.cons.injEq, Event.stop.injEq] at h2
            obtain ⟨rfl, h2⟩ := h2
            obtain ⟨ts', es', g1, g2, g3⟩ := ih2 es1 r hr
              (fun hh => hne1 (List.mem_cons_of_mem _ hh)) h2
            refine ⟨.elem m as sub' :: ts', es', ?_, g2, ?_⟩
            · simp [eventsAll, events, h1, g1]
            · simp [chopAll, chop, h3, g3]
          | text s =>
            cases s with
            | nil => exact absurd List.mem_cons_self hne1
            | cons => simp [bytewise] at h2
          | _ => simp [bytewise] at h2
      | text s =>
        cases s with
        | nil => exact absurd List.mem_cons_self hne
        | cons => simp [bytewise] at h
      | _ => simp [bytewise] at h

/-- the same for one element -/
theorem divided_root (name : Str) (atts : List (Str × Str)) (sub : List Tree) (es : List Event)
    (hne : .text [] ∉ es) (h : bytewise es = bytewise (events (.elem name atts sub))) :
    ∃ sub', es = events (.elem name atts sub') ∧ chopAll sub' = chopAll sub := by
  have h' : bytewise es = eventsAll (chopAll [.elem name atts sub]) ++ [] := by
    rw [chopAll_events]; simpa [eventsAll] using h
  obtain ⟨ts', es', h1, h2, h3⟩ := divided (chopAll_chopped _) es [] (Or.inl rfl) hne h'
  have h4 : es' = [] := by
    cases es' with
    | nil => rfl
    | cons e es' =>
      cases e with
      | text s =>
        cases s with
        | nil => exact absurd (by rw [h1]; simp) hne
        | cons => simp [bytewise] at h2
      | _ => simp [bytewise] at h2
  subst h4
  cases ts' with
  | nil => simp [chopAll, chop] at h3
  | cons t ts' =>
    cases t with
    | text s =>
      cases s with
      | nil => exact absurd (by rw [h1]; simp [eventsAll, events]) hne
      | cons => simp [chopAll, chop] at h3
    | elem n as sub' =>
      simp only [chopAll, chop, List.cons_append, List.nil_append, List.cons.injEq, Tree.elem.injEq]
        at h3
      obtain ⟨⟨rfl, rfl, h3⟩, h5⟩ := h3
      refine ⟨sub', ?_, h3⟩
      have : eventsAll ts' = [] := by
        cases ts' with
        | nil => rfl
        | cons t ts' =>
          cases t with
          | text s =>
            cases s with
            | nil => exact absurd (by rw [h1]; simp [eventsAll, events]) hne
            | cons => simp [chopAll, chop] at h5
          | elem => simp [chopAll, chop] at h5
      rw [h1]
      simp [eventsAll, this]

end Libube.Xml

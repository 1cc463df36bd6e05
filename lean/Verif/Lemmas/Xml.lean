import Verif.Spec.Xml
import Verif.Lemmas.Ini

/-! # Lemmas about the XML handlers -/

namespace Libube.Xml

open Libube Libube.CString Libube.XmlSpec Libube.OrderSpec
open Libube.Order (KeyClass WF code isKey_class mapRef_spec)

/-! ### attributes -/

theorem mapSet_fresh (n : Nat) (ps : List (Val × Val)) (k v : Val) (hk : IsKey k)
    (h : WF IsKey code ps) (hne : ∀ p ∈ ps, code p.1 ≠ code k) :
    ∃ ps', mapSet (n + 2) ps k v = .ok ps' ∧ WF IsKey code ps' ∧ ps'.Perm (ps ++ [(k, v)]) := by
  rcases mapRef_spec (isKey_class n) ps k hk h with ⟨p1, q, p2, rfl, he, -⟩ | ⟨p1, p2, rfl, -, w, hr⟩
  · exact absurd he (hne q (by simp))
  · refine ⟨p1 ++ (k, v) :: p2, ?_, ?_, ?_⟩
    · unfold mapSet
      rw [hr, Outcome.bind_ok]
      simp
    · refine ⟨?_, ?_⟩
      · intro p hp
        simp only [List.mem_append, List.mem_cons] at hp
        rcases hp with hp | rfl | hp
        · exact w.keys p (by simp [hp])
        · exact hk
        · exact w.keys p (by simp [hp])
      · have hs := w.sorted
        rw [List.pairwise_append, List.pairwise_cons] at hs ⊢
        refine ⟨hs.1, hs.2.1, ?_⟩
        intro a ha b hb
        rcases List.mem_cons.1 hb with rfl | hb
        · exact hs.2.2 a ha (k, .nil) (by simp)
        · exact hs.2.2 a ha b (by simp [hb])
    · rw [List.append_assoc]
      exact List.Perm.append_left p1 (List.perm_append_comm (l₁ := [(k, v)]))

theorem setAttrs_spec (n : Nat) (as : List (Str × Str)) (ps : List (Val × Val))
    (h : WF IsKey code ps) (h0 : ∀ a ∈ as, (0 : UInt8) ∉ a.1)
    (hd : as.Pairwise (fun a b => a.1 ≠ b.1))
    (hf : ∀ a ∈ as, ∀ p ∈ ps, code p.1 ≠ code (.chars a.1)) :
    ∃ ps', setAttrs (n + 2) ps as = .ok ps' ∧ WF IsKey code ps' ∧
      ps'.Perm (ps ++ as.map fun a => (Val.chars a.1, Val.chars a.2)) := by
  induction as generalizing ps with
  | nil => exact ⟨ps, rfl, h, by simp⟩
  | cons a as ih =>
    obtain ⟨k, v⟩ := a
    obtain ⟨ps1, e, w, hp⟩ := mapSet_fresh n ps (.chars k) (.chars v) (h0 (k, v) (by simp)) h
      (hf (k, v) (by simp))
    obtain ⟨hd1, hd2⟩ := List.pairwise_cons.1 hd
    obtain ⟨ps2, e2, w2, hp2⟩ := ih ps1 w (fun a ha => h0 a (by simp [ha])) hd2 (by
      intro a ha p hpp
      rcases List.mem_append.1 (hp.subset hpp) with h1 | h1
      · exact hf a (by simp [ha]) p h1
      · obtain rfl := List.mem_singleton.1 h1
        exact fun hc => hd1 a ha ((Ini.code_chars _ _).1 hc))
    refine ⟨ps2, ?_, w2, hp2.trans ?_⟩
    · unfold setAttrs
      rw [e, Outcome.bind_ok, e2]
    · refine (List.Perm.append_right _ hp).trans ?_
      simp

theorem setAttrs_shows (n : Nat) (as : List (Str × Str)) (h0 : ∀ a ∈ as, (0 : UInt8) ∉ a.1)
    (hd : as.Pairwise (fun a b => a.1 ≠ b.1)) :
    ∃ ps, setAttrs (n + 2) [] as = .ok ps ∧
      ShowsAtts as (if ps = [] then .nil else .map ps) := by
  obtain ⟨ps, e, w, hp⟩ := setAttrs_spec n as [] Order.WF.nil h0 hd (by simp)
  rw [List.nil_append] at hp
  refine ⟨ps, e, ?_⟩
  by_cases h : ps = []
  · subst h
    rw [if_pos rfl]
    exact Or.inl ⟨by simpa using hp.symm.eq_nil, rfl⟩
  · rw [if_neg h]
    refine Or.inr ⟨?_, ps, rfl, hp, ?_⟩
    · rintro rfl; exact h hp.eq_nil
    · exact List.Pairwise.imp_of_mem (fun {p q} h1 h2 hlt =>
        (Order.keyLt_iff (w.keys p h1) (w.keys q h2)).2 hlt) w.sorted

/-! ### sequences of events -/

theorem handleAll_append (n : Nat) (s : State) (a b : List Event) :
    handleAll n s (a ++ b) = (handleAll n s a >>= fun s => handleAll n s b) := by
  induction a generalizing s with
  | nil => rfl
  | cons e a ih =>
    simp only [List.cons_append, handleAll]
    cases handle n s e <;> simp [ih]

theorem neq_self_chars (n : Nat) (s : Bytes) : neq (n + 2) (.chars s) (.chars s) = .ok false := by
  have h : ∀ s : Bytes, neqLoop (neq (n + 1)) (s.map Val.char) (s.map Val.char) = .ok false := by
    intro s
    induction s with
    | nil => rfl
    | cons b s ih =>
      simp only [List.map_cons, neqLoop]
      have : neq (n + 1) (.char b) (.char b) = .ok false := by
        simp [neq, Val.type, Val.size]
      rw [this, Outcome.bind_ok]
      simpa using ih
  simp only [neq, ne_eq, not_true_eq_false, if_false, Val.hasHeap, Bool.not_true, Val.elems]
  exact h s

/-- the part of the elements an item refers to is there -/
def Sits (E : List Elem) (at_ : Nat) (new : List Elem) : Prop :=
  ∀ (i : Nat) (h : i < new.length), E[at_ + i]? = some new[i]

theorem contents_append (f : Nat → Outcome Val) (a b : List Item) (x y : List Val)
    (ha : contents f a = .ok x) (hb : contents f b = .ok y) :
    contents f (a ++ b) = .ok (x ++ y) := by
  induction a generalizing x with
  | nil =>
    simp only [contents, Outcome.ok.injEq] at ha
    subst ha; exact hb
  | cons i a ih =>
    cases i with
    | text s =>
      simp only [contents, List.cons_append] at ha ⊢
      cases h : contents f a with
      | ok z =>
        rw [h] at ha
        simp only [Outcome.bind_ok, Outcome.ok.injEq] at ha
        subst ha
        rw [ih z h]; rfl
      | _ => rw [h] at ha; cases ha
    | child j =>
      simp only [contents, List.cons_append] at ha ⊢
      cases hj : f j with
      | ok w =>
        rw [hj] at ha
        cases h : contents f a with
        | ok z =>
          rw [h] at ha
          simp only [Outcome.bind_ok, Outcome.ok.injEq] at ha
          subst ha
          rw [ih z h]; rfl
        | _ => rw [h] at ha; cases ha
      | _ => rw [hj] at ha; cases ha

theorem Sits.left {E : List Elem} {k : Nat} {a b : List Elem} (h : Sits E k (a ++ b)) : Sits E k a := by
  intro i hi
  have := h i (by simp; omega)
  rwa [List.getElem_append_left hi] at this

theorem Sits.right {E : List Elem} {k : Nat} {a b : List Elem} (h : Sits E k (a ++ b)) :
    Sits E (k + a.length) b := by
  intro i hi
  have := h (a.length + i) (by simp; omega)
  rw [List.getElem_append_right (by omega)] at this
  simpa [Nat.add_assoc] using this

/-- What handling a list of trees inside an open element does. -/
def Handled (n : Nat) (ts : List Tree) : Prop :=
  ∀ (es : List Elem) (root : Option Nat) (top : Nat) (st : List Nat) (e : Elem),
    es[top]? = some e →
    ∃ items new,
      handleAll (n + 2) ⟨es, root, some (top :: st)⟩ (eventsAll ts) =
        .ok ⟨es.set top { e with data := e.data ++ items } ++ new, root, some (top :: st)⟩ ∧
      (items = [] ↔ ts = []) ∧
      ∀ E, Sits E es.length new → ∀ d, Tree.depthAll ts ≤ d →
        ∃ vs, contents (content E d) items = .ok vs ∧ ts.length = vs.length ∧
          ∀ (i : Nat) (h : i < ts.length) (h' : i < vs.length), Shows ts[i] vs[i]

theorem handled_nil (n : Nat) : Handled n [] := by
  intro es root top st e he
  refine ⟨[], [], ?_, by simp, ?_⟩
  · simp only [eventsAll, handleAll, List.append_nil, Outcome.ok.injEq, State.mk.injEq, and_true]
    obtain ⟨h, rfl⟩ := List.getElem?_eq_some_iff.1 he
    exact (List.set_getElem_self h).symm
  · intro E _ d _
    exact ⟨[], rfl, rfl, by simp⟩

/-- the element pushed for a tree with given handled content -/
theorem handled_elem (n : Nat) (name : Str) (atts : List (Str × Str)) (sub : List Tree)
    (h0 : ∀ a ∈ atts, (0 : UInt8) ∉ a.1) (hd : atts.Pairwise (fun a b => a.1 ≠ b.1))
    (hs : Handled n sub) (pre : List Elem) (root : Option Nat) (st : List Nat) (ps : List (Val × Val)) :
    ∃ items new,
      handleAll (n + 2) ⟨pre ++ [⟨name, ps, []⟩], root, some (pre.length :: st)⟩
          (eventsAll sub ++ [.stop name]) =
        .ok ⟨pre ++ ⟨name, ps, items⟩ :: new, root, some st⟩ ∧
      (ShowsAtts atts (if ps = [] then .nil else .map ps) →
        ∀ E, Sits E pre.length (⟨name, ps, items⟩ :: new) → ∀ d, Tree.depthAll sub ≤ d →
          ∃ v, content E (d + 1) pre.length = .ok v ∧ Shows (.elem name atts sub) v) := by
  obtain ⟨items, new, h1, h2, h3⟩ := hs (pre ++ [⟨name, ps, []⟩]) root pre.length st ⟨name, ps, []⟩
    (by simp)
  refine ⟨items, new, ?_, ?_⟩
  · rw [handleAll_append, h1, Outcome.bind_ok]
    have e1 : (pre ++ [(⟨name, ps, []⟩ : Elem)]).set pre.length
        { (⟨name, ps, []⟩ : Elem) with data := [] ++ items } ++ new =
        pre ++ (⟨name, ps, items⟩ : Elem) :: new := by
      simp
    rw [e1]
    simp only [handleAll, handle, endElement]
    have e2 : (pre ++ (⟨name, ps, items⟩ : Elem) :: new)[pre.length]? = some ⟨name, ps, items⟩ := by
      simp
    rw [e2]
    simp only [neq_self_chars, Outcome.bind_ok]
    rfl
  · intro hsa E hE d hdep
    have e0 : E[pre.length]? = some ⟨name, ps, items⟩ := by
      have := hE 0 (by simp)
      simpa using this
    have hE' : Sits E (pre ++ [(⟨name, ps, []⟩ : Elem)]).length new := by
      have := Sits.right (a := [⟨name, ps, items⟩]) (b := new) hE
      simpa using this
    obtain ⟨vs, g1, g2, g3⟩ := h3 E hE' d hdep
    refine ⟨.arr [.chars name, if ps = [] then .nil else .map ps, .chars textWord,
        if items = [] then .nil else .arr vs], ?_, ?_⟩
    · unfold content
      rw [e0]
      simp only [g1, Outcome.bind_ok]
    · by_cases hi : items = []
      · have := h2.1 hi
        subst this
        rw [if_pos hi]
        exact .empty name atts _ hsa
      · rw [if_neg hi]
        exact .elem name atts sub _ vs hsa (fun h => hi (h2.2 h)) g2 g3

theorem handled_cons (n : Nat) (t : Tree) (ts : List Tree) (h1 : Handled n [t]) (h2 : Handled n ts) :
    Handled n (t :: ts) := by
  intro es root top st e he
  obtain ⟨i1, n1, e1, c1, s1⟩ := h1 es root top st e he
  have hlt : top < es.length := (List.getElem?_eq_some_iff.1 he).1
  obtain ⟨i2, n2, e2, c2, s2⟩ := h2 (es.set top { e with data := e.data ++ i1 } ++ n1) root top st
    { e with data := e.data ++ i1 } (by
      rw [List.getElem?_append_left (by simpa using hlt)]
      simp [hlt])
  refine ⟨i1 ++ i2, n1 ++ n2, ?_, ?_, ?_⟩
  · have : eventsAll (t :: ts) = eventsAll [t] ++ eventsAll ts := by simp [eventsAll]
    rw [this, handleAll_append, e1, Outcome.bind_ok, e2]
    simp only [Outcome.ok.injEq, State.mk.injEq, and_true]
    rw [List.set_append_left _ _ (by simpa using hlt)]
    simp
  · have : i1 ≠ [] := fun h => by simpa using c1.1 h
    simp [this]
  · intro E hE d hdep
    simp only [Tree.depthAll, Nat.max_le] at hdep
    obtain ⟨v1, a1, a2, a3⟩ := s1 E hE.left d (by simp [Tree.depthAll]; omega)
    obtain ⟨v2, b1, b2, b3⟩ := s2 E (by
      have := hE.right
      simpa using this) d hdep.2
    refine ⟨v1 ++ v2, contents_append _ _ _ _ _ a1 b1, by simp [← a2, ← b2]; omega, ?_⟩
    intro i h h'
    cases i with
    | zero =>
      have := a3 0 (by simp) (by simp [← a2])
      rw [List.getElem_append_left (by simp [← a2])]
      exact this
    | succ i =>
      have hv : v1.length = 1 := by simpa using a2.symm
      rw [List.getElem_append_right (by omega)]
      have := b3 i (by simpa using h) (by simp at h'; omega)
      simpa [hv] using this

mutual
theorem handled_tree (n : Nat) : (t : Tree) → t.Wf → Handled n [t]
  | .text s, _ => by
    intro es root top st e he
    refine ⟨[.text s], [], ?_, by simp, ?_⟩
    · simp [eventsAll, events, handleAll, handle, characterData, pushData, he]
    · intro E _ d _
      refine ⟨[.chars s], rfl, rfl, ?_⟩
      intro i h h'
      obtain rfl : i = 0 := by simpa using h
      exact .text s
  | .elem name atts sub, hw => by
    intro es root top st e he
    obtain ⟨ps, ha, hsa⟩ := setAttrs_shows n atts hw.2.1 hw.2.2.1
    have hlt : top < es.length := (List.getElem?_eq_some_iff.1 he).1
    obtain ⟨items, new, h1, h2⟩ := handled_elem n name atts sub hw.2.1 hw.2.2.1
      (handled_all n sub hw.2.2.2) (es.set top { e with data := e.data ++ [.child es.length] })
      root (top :: st) ps
    refine ⟨[.child es.length], ⟨name, ps, items⟩ :: new, ?_, by simp, ?_⟩
    · have e1 : handle (n + 2) ⟨es, root, some (top :: st)⟩ (.start name atts) =
          .ok ⟨es.set top { e with data := e.data ++ [.child es.length] } ++ [⟨name, ps, []⟩], root,
            some (es.length :: top :: st)⟩ := by
        simp [handle, startElement, ha, pushData, he]
      simp only [eventsAll, events, List.append_nil, List.cons_append, handleAll]
      rw [e1, Outcome.bind_ok]
      rw [List.length_set] at h1
      exact h1
    · intro E hE d hdep
      simp only [Tree.depthAll, Tree.depth] at hdep
      obtain ⟨d, rfl⟩ : ∃ k, d = k + 1 := ⟨d - 1, by omega⟩
      rw [List.length_set] at h2
      obtain ⟨v, g1, g2⟩ := h2 hsa E hE d (by omega)
      refine ⟨[v], ?_, rfl, ?_⟩
      · simp only [contents, g1, Outcome.bind_ok]
      · intro i h h'
        obtain rfl : i = 0 := by simpa using h
        exact g2
theorem handled_all (n : Nat) : (ts : List Tree) → Tree.WfAll ts → Handled n ts
  | [], _ => handled_nil n
  | t :: ts, h => handled_cons n t ts (handled_tree n t h.1) (handled_all n ts h.2)
end

/-- C69 in full: the root element. -/
theorem parse_tree (n d : Nat) (name : Str) (atts : List (Str × Str)) (sub : List Tree)
    (hw : (Tree.elem name atts sub).Wf) (hd : (Tree.elem name atts sub).depth ≤ d) :
    ∃ v, parse (n + 2) d (events (.elem name atts sub)) = .ok v ∧
      Shows (.elem name atts sub) v := by
  obtain ⟨ps, ha, hsa⟩ := setAttrs_shows n atts hw.2.1 hw.2.2.1
  obtain ⟨items, new, h1, h2⟩ := handled_elem n name atts sub hw.2.1 hw.2.2.1
    (handled_all n sub hw.2.2.2) [] (some 0) [] ps
  simp only [Tree.depth] at hd
  obtain ⟨d, rfl⟩ : ∃ k, d = k + 1 := ⟨d - 1, by omega⟩
  obtain ⟨v, g1, g2⟩ := h2 hsa ([] ++ ⟨name, ps, items⟩ :: new) (by
    intro i h
    simp only [List.length_nil, Nat.zero_add, List.nil_append]
    exact List.getElem?_eq_getElem h) d (by omega)
  refine ⟨v, ?_, g2⟩
  have e1 : handle (n + 2) .init (.start name atts) = .ok ⟨[⟨name, ps, []⟩], some 0, some [0]⟩ := by
    simp [handle, startElement, ha, State.init]
  unfold parse
  simp only [events, List.cons_append, handleAll]
  rw [e1, Outcome.bind_ok]
  simp only [List.nil_append, List.length_nil] at h1 g1
  rw [h1, Outcome.bind_ok]
  exact g1

end Libube.Xml

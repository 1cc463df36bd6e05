import Verif.Lemmas.Ini
import Verif.Model.Config
import Verif.Spec.Config

/-! # Lemmas about configurations -/

namespace Libube.Config

open Libube Libube.CString Libube.OrderSpec Libube.IniSpec Libube.ConfigSpec
open Libube.Order (KeyClass WF code isKey_class mapSet_spec)
open Libube.Maps (step mapRef_get)

/-- the value of an entry -/
def look (ps : List (Val × Val)) (c d : List Int) : Option Val :=
  match Order.get code ps c with
  | some (.map q) => Order.get code q d
  | _ => none

structure Inv (ps : List (Val × Val)) (m : List Int → List Int → Option Val) : Prop where
  wf : WF IsKey code ps
  sections : ∀ c v, Order.get code ps c = some v → v = .nil ∨ ∃ q, v = .map q ∧ WF IsKey code q
  look : ∀ c d, look ps c d = m c d

theorem Inv.empty : Inv [] (fun _ _ => none) :=
  ⟨WF.nil, (by intro c v h; cases h), fun _ _ => rfl⟩

/-- updating -/
def upd (m : List Int → List Int → Option Val) (c d : List Int) (v : Val) :
    List Int → List Int → Option Val :=
  fun c' d' => if c' = c ∧ d' = d then some v else m c' d'

theorem set_at {ps : List (Val × Val)} (h : WF IsKey code ps) {i : Nat} {p : Val × Val}
    (hp : ps[i]? = some p) (v : Val) :
    WF IsKey code (ps.set i (p.1, v)) ∧
    ∀ c, Order.get code (ps.set i (p.1, v)) c = if c = code p.1 then some v else Order.get code ps c := by
  obtain ⟨hi, hpi⟩ := List.getElem?_eq_some_iff.1 hp
  have e5 : ps.set i (p.1, v) = ps.take i ++ (p.1, v) :: ps.drop (i + 1) := by
    rw [List.set_eq_take_append_cons_drop, if_pos hi]
  have e6 : ps = ps.take i ++ p :: ps.drop (i + 1) := by
    rw [← hpi, List.cons_getElem_drop_succ, List.take_append_drop]
  have hw : WF IsKey code (ps.take i ++ (p.1, v) :: ps.drop (i + 1)) := (e6 ▸ h).replace
  refine ⟨by rw [e5]; exact hw, fun c => ?_⟩
  rw [e5]
  split
  · rename_i hc
    rw [hc]; exact Order.get_middle hw
  · rename_i hc
    rw [Order.get_middle_ne (q := (p.1, v)) (fun h => hc h.symm),
      ← Order.get_middle_ne (q := p) (fun h => hc h.symm), ← e6]

theorem touch_inv {n : Nat} {ps m} (h : Inv ps m) (sec : Val) (hs : IsKey sec) :
    ∃ ps' i p, mapRef (n + 2) ps sec = .ok (ps', some i) ∧ ps'[i]? = some p ∧ Inv ps' m ∧
      code p.1 = code sec ∧ Order.get code ps' (code sec) = some p.2 := by
  obtain ⟨ps1, i, p, e1, w1, e2, e3, e4, g⟩ := mapRef_get (isKey_class n) ps sec hs h.wf
  refine ⟨ps1, i, p, e1, e2, ⟨w1, ?_, ?_⟩, e3, e4⟩
  · intro c v hv
    rw [g] at hv
    simp only [step] at hv
    split at hv
    · cases hx : Order.get code ps c with
      | none => rw [hx] at hv; left; simpa using hv.symm
      | some w =>
        rw [hx] at hv
        simp only [Option.some.injEq] at hv
        exact hv ▸ h.sections c w hx
    · exact h.sections c v hv
  · intro c d
    rw [← h.look c d]
    unfold look
    rw [g]
    simp only [step]
    by_cases hc : c = code sec
    · rw [if_pos hc]
      cases hx : Order.get code ps c <;> rfl
    · rw [if_neg hc]

theorem assign_spec (n : Nat) (ps m) (h : Inv ps m) (sec entry val : Val) (hs : IsKey sec)
    (he : IsKey entry) :
    ∃ ps', assign (n + 2) ps sec entry val = .ok ps' ∧ Inv ps' (upd m (code sec) (code entry) val) := by
  obtain ⟨ps1, i, p, e1, e2, h1, e3, e4⟩ := touch_inv (n := n) h sec hs
  have key : ∀ q, (p.2 = .map q ∨ p.2 = .nil ∧ q = []) → WF IsKey code q →
      ∃ q', mapSet (n + 2) q entry val = .ok q' ∧
        Inv (ps1.set i (p.1, .map q')) (upd m (code sec) (code entry) val) := by
    intro q hq hw
    obtain ⟨q', e5, w', g', -⟩ := mapSet_spec (isKey_class n) q entry val he hw
    obtain ⟨w2, g2⟩ := set_at h1.wf e2 (.map q')
    rw [e3] at g2
    refine ⟨q', e5, w2, ?_, ?_⟩
    · intro c v hv
      rw [g2] at hv
      split at hv
      · right; exact ⟨q', by simpa using hv.symm, w'⟩
      · exact h1.sections c v hv
    · intro c d
      unfold look upd
      rw [g2]
      by_cases hc : c = code sec
      · subst hc
        simp only [if_true, true_and, g']
        split
        · rfl
        · rw [← h1.look]
          unfold look
          rw [e4]
          rcases hq with hq | ⟨hq, rfl⟩
          · simp only [hq]
          · simp only [hq]; rfl
      · rw [if_neg hc, if_neg (fun h => hc h.1), ← h1.look]
        rfl
  unfold assign
  rw [e1, Outcome.bind_ok]
  simp only [e2]
  obtain ⟨pk, pv⟩ := p
  simp only at e4 key
  rcases h1.sections _ _ e4 with hn | ⟨q, hq, hw⟩
  · subst hn
    obtain ⟨q', e, hi⟩ := key [] (.inr ⟨rfl, rfl⟩) WF.nil
    simp only [e, Outcome.bind_ok]
    exact ⟨_, rfl, hi⟩
  · subst hq
    obtain ⟨q', e, hi⟩ := key q (.inl rfl) hw
    simp only [e, Outcome.bind_ok]
    exact ⟨_, rfl, hi⟩

theorem section_spec {n : Nat} {ps m} (h : Inv ps m) (sec : Val) (hs : IsSection sec) :
    ∃ ps' v, section_ (n + 2) ps sec = .ok (ps', v) ∧ Inv ps' m ∧
      (v = .nil ∧ (IsKey sec → ∀ d, m (code sec) d = none) ∨
       ∃ q, v = .map q ∧ WF IsKey code q ∧ ∀ d, m (code sec) d = Order.get code q d) := by
  rcases hs with rfl | hs
  · exact ⟨ps, .nil, rfl, h, .inl ⟨rfl, fun h => h.elim⟩⟩
  · obtain ⟨ps1, i, p, e1, e2, h1, e3, e4⟩ := touch_inv (n := n) h sec hs
    refine ⟨ps1, p.2, ?_, h1, ?_⟩
    · unfold section_
      rw [e1, Outcome.bind_ok]
      simp only [e2]
    · rcases h1.sections _ _ e4 with hn | ⟨q, hq, hw⟩
      · left
        refine ⟨hn, fun _ d => ?_⟩
        rw [← h1.look]; unfold look; rw [e4, hn]
      · right
        refine ⟨q, hq, hw, fun d => ?_⟩
        rw [← h1.look]; unfold look; rw [e4, hq]

theorem valueAt_spec {n : Nat} {q : List (Val × Val)} (hw : WF IsKey code q) (k : Val) (hk : IsKey k)
    {v : Val} (hv : Order.get code q (code k) = some v) : valueAt (n + 2) q k = .ok v := by
  obtain ⟨q1, i, p, e1, w1, e2, e3, e4, g⟩ := mapRef_get (isKey_class n) q k hk hw
  unfold valueAt
  rw [e1, Outcome.bind_ok]
  simp only [e2]
  rw [g] at e4
  simp only [step, if_true, hv, Option.some.injEq] at e4
  rw [e4]

/-- index on a map, in terms of `get` -/
theorem index_get {n : Nat} {q : List (Val × Val)} (hw : WF IsKey code q) (k : Val) (hk : IsKey k) :
    (∃ (j : Nat) (v : Val), index (n + 2) (.map q) k = .ok (j : Int) ∧ Order.get code q (code k) = some v) ∨
    (index (n + 2) (.map q) k = .ok (-1) ∧ Order.get code q (code k) = none) := by
  have hK := isKey_class n
  obtain ⟨p1, p2, rfl, h1, h2⟩ := hw.split (code k)
  have hb := Order.binary_map hK p1 p2 k hk hw h1 h2
  simp only [index, hb, Outcome.bind_ok]
  cases p2 with
  | nil =>
    right
    rw [List.getElem?_eq_none (by simp)]
    refine ⟨rfl, Order.get_none fun p hp => ne_of_lt (h1 p (by simpa using hp))⟩
  | cons q p2 =>
    have hq : (p1 ++ q :: p2)[p1.length]? = some q := by simp
    have hqk : IsKey q.1 := hw.keys q (by simp)
    simp only [hq, eq, hK.neq_ok _ _ hqk hk, Outcome.bind_ok]
    by_cases he : code q.1 = code k
    · left
      refine ⟨p1.length, q.2, by simp [he], ?_⟩
      rw [← he]; exact Order.get_middle hw
    · right
      refine ⟨by simp [he], Order.get_none ?_⟩
      intro p hp
      simp only [List.mem_append, List.mem_cons] at hp
      have hlt : code k < code q.1 := lt_of_le_of_ne (not_lt.1 (h2 q (by simp))) (Ne.symm he)
      rcases hp with hp | rfl | hp
      · exact ne_of_lt (h1 p hp)
      · exact he
      · exact Ne.symm (ne_of_lt (lt_trans hlt (hw.tail_gt p hp)))

theorem find_spec {n : Nat} {sec v : Val} {m : List Int → List Int → Option Val} (hs : IsKey sec)
    (h : v = .nil ∧ (IsKey sec → ∀ d, m (code sec) d = none) ∨
       ∃ q, v = .map q ∧ WF IsKey code q ∧ ∀ d, m (code sec) d = Order.get code q d)
    (entry : Val) (he : IsKey entry) :
    find (n + 2) v entry = .ok (m (code sec) (code entry)) := by
  rcases h with ⟨rfl, h⟩ | ⟨q, rfl, hw, h⟩
  · rw [h hs]; rfl
  · rw [h]
    unfold find
    rcases index_get (n := n) hw entry he with ⟨j, v, e, hv⟩ | ⟨e, hv⟩
    · rw [hv]
      simp only [e, Outcome.bind_ok]
      rw [if_neg (by omega), valueAt_spec hw entry he hv]
      rfl
    · rw [hv]
      simp only [e, Outcome.bind_ok]
      rfl

/-! ### merging files -/

/-- one map laid over another -/
def over (q : List (Val × Val)) (m : List Int → Option Val) : List Int → Option Val :=
  fun d => match Order.get code q d with
    | some v => some v
    | none => m d

theorem WF.tail {p : Val × Val} {q : List (Val × Val)} (h : WF IsKey code (p :: q)) : WF IsKey code q :=
  ⟨fun x hx => h.keys x (List.mem_cons_of_mem _ hx), (List.pairwise_cons.1 h.sorted).2⟩

theorem get_cons (p : Val × Val) (q : List (Val × Val)) (c : List Int) :
    Order.get code (p :: q) c = if code p.1 = c then some p.2 else Order.get code q c := by
  unfold Order.get
  rw [List.find?_cons]
  by_cases h : code p.1 = c <;> simp [h]

theorem get_head_none {p : Val × Val} {q : List (Val × Val)} (h : WF IsKey code (p :: q)) :
    Order.get code q (code p.1) = none :=
  Order.get_none fun x hx => Ne.symm (ne_of_lt ((List.pairwise_cons.1 h.sorted).1 x hx))

theorem mergeEntries_spec (n : Nat) (sec : Val) (hs : IsKey sec) (q : List (Val × Val))
    (hq : WF IsKey code q) (es : List (Val × Val)) :
    ∀ ps m, Inv ps m → WF IsKey code es → (∀ e ∈ es, e ∈ q) →
    ∃ ps', mergeEntries (n + 2) sec q ps es = .ok ps' ∧
      Inv ps' (fun c d => if c = code sec then over es (m c) d else m c d) := by
  induction es with
  | nil =>
    intro ps m h _ _
    refine ⟨ps, rfl, ?_⟩
    have : (fun c d => if c = code sec then over [] (m c) d else m c d) = m := by
      funext c d
      simp [over, Order.get]
    rw [this]; exact h
  | cons e es ih =>
    intro ps m h hw hm
    have hk : IsKey e.1 := hw.keys e (by simp)
    have hv := valueAt_spec (n := n) hq e.1 hk (Ini.get_of_mem hq (hm e (by simp)))
    obtain ⟨ps1, e1, h1⟩ := assign_spec n ps m h sec e.1 e.2 hs hk
    obtain ⟨ps2, e2, h2⟩ := ih ps1 _ h1 (WF.tail hw) (fun x hx => hm x (List.mem_cons_of_mem _ hx))
    refine ⟨ps2, ?_, ?_⟩
    · simp only [mergeEntries, hv, Outcome.bind_ok, e1, e2]
    · convert h2 using 1
      funext c d
      by_cases hc : c = code sec
      · subst hc
        simp only [if_true, over, get_cons, upd, true_and]
        by_cases hd : code e.1 = d
        · subst hd
          simp only [if_true, get_head_none hw]
        · rw [if_neg hd, if_neg (fun h => hd h.symm)]
      · simp [hc, upd]

/-- every section is a map with ordinary keys -/
def AllMaps (cnf : List (Val × Val)) : Prop := ∀ p ∈ cnf, ∃ q, p.2 = .map q ∧ WF IsKey code q

theorem mergeSections_spec (n : Nat) (cnf : List (Val × Val)) :
    ∀ ps m, Inv ps m → WF IsKey code cnf → AllMaps cnf →
    ∃ ps', mergeSections (n + 2) ps cnf = .ok ps' ∧
      Inv ps' (fun c d => match look cnf c d with | some v => some v | none => m c d) := by
  induction cnf with
  | nil => intro ps m h _ _; exact ⟨ps, rfl, h⟩
  | cons p rest ih =>
    intro ps m h hw ha
    obtain ⟨q, hq, hqw⟩ := ha p (by simp)
    obtain ⟨sec, pv⟩ := p
    simp only at hq
    subst hq
    have hs : IsKey sec := hw.keys (sec, Val.map q) (by simp)
    obtain ⟨ps1, e1, h1⟩ := mergeEntries_spec n sec hs q hqw q ps m h hqw (fun _ h => h)
    obtain ⟨ps2, e2, h2⟩ := ih ps1 _ h1 (WF.tail hw) (fun x hx => ha x (List.mem_cons_of_mem _ hx))
    refine ⟨ps2, ?_, ?_⟩
    · simp only [mergeSections, e1, Outcome.bind_ok, e2]
    · convert h2 using 1
      funext c d
      have hl : look ((sec, Val.map q) :: rest) c d =
          if code sec = c then Order.get code q d else look rest c d := by
        unfold look
        rw [get_cons]
        by_cases hc : code sec = c <;> simp [hc]
      rw [hl]
      by_cases hc : code sec = c
      · subst hc
        have hn : look rest (code sec) d = none := by
          unfold look; rw [get_head_none hw]
        simp only [if_true, hn, over]
      · rw [if_neg hc]
        cases hr : look rest c d with
        | some v => simp
        | none => simp [Ne.symm hc]

theorem isStr_isKey {v : Val} (h : Ini.IsStr v) : IsKey v := by
  obtain ⟨s, rfl, h⟩ := h; exact h

theorem wf_str {q : List (Val × Val)} (h : WF Ini.IsStr code q) : WF IsKey code q :=
  ⟨fun p hp => isStr_isKey (h.keys p hp), h.sorted⟩

/-- what reading a file gives -/
theorem read_spec (fill : UInt8) (n fuel : Nat) (is : List Item)
    (h : ∀ i ∈ is, i.Valid ∧ i.OneSeparator ∧ (10 : UInt8) ∉ i.text) (hf : is.length < fuel) :
    ∃ cnf, Ini.read fill (n + 2) fuel (fileText is) = .ok cnf ∧ WF IsKey code cnf ∧ AllMaps cnf ∧
      ∀ ss sec entry v, IsKey sec → IsKey entry →
        (look cnf (code sec) (code entry) = some v ↔ Stores ss (.file is) sec entry v) := by
  obtain ⟨f, rfl⟩ : ∃ f, fuel = is.length + (f + 1) := ⟨fuel - is.length - 1, by omega⟩
  obtain ⟨ps, old, e, hi, -⟩ := Ini.loop_items fill n is (fun i hi => (h i hi).1)
    (fun i hi => (h i hi).2.1) (fun i hi => (h i hi).2.2) [] _ Ini.Inv.empty [] (by simp) [] [] (f + 1)
  refine ⟨ps, ?_, wf_str hi.wf, ?_, ?_⟩
  · rw [List.append_nil] at e
    rw [Ini.read, fileText, e]
    simp [Ini.loop, GetLine.getline_end]
  · intro p hp
    obtain ⟨q, hq, hs⟩ := hi.sections _ _ (Ini.get_of_mem hi.wf hp)
    exact ⟨q, hq, wf_str hs.wf⟩
  · intro ss sec entry v hs he
    constructor
    · intro hl
      unfold look at hl
      cases hg : Order.get code ps (code sec) with
      | none => rw [hg] at hl; cases hl
      | some w =>
        obtain ⟨q, rfl, hsec⟩ := hi.sections _ _ hg
        simp only [hg] at hl
        obtain ⟨p, hp, hc, -⟩ := Ini.mem_of_get hg
        obtain ⟨s, hps, hps0⟩ := hi.wf.keys p hp
        obtain ⟨x, hx, hxc, hx2⟩ := Ini.mem_of_get hl
        obtain ⟨k, hxk, hxk0⟩ := hsec.wf.keys x hx
        obtain ⟨b, hb⟩ := hsec.vals _ _ hl
        have h1 : sec = .chars s := by
          have := (Order.sameKey_iff (a := .chars s) hps0 hs).2 (by rw [← hc, hps])
          cases sec <;> simp_all [SameKey]
        have h2 : entry = .chars k := by
          have := (Order.sameKey_iff (a := .chars k) hxk0 he).2 (by rw [← hxc, hxk])
          cases entry <;> simp_all [SameKey]
        subst h1; subst h2; subst hb
        refine .file is s k b ((Ini.bindings_last _ _ _ _).1 ?_)
        have := hi.look s k
        simp only [Ini.look, hg, hl] at this
        cases hm : Ini.bindings [] (fun _ _ => none) is s k with
        | none => rw [hm] at this; cases this
        | some w => rw [hm] at this; simpa using this.symm
    · intro hst
      cases hst with
      | file _ s k w hl =>
        have := hi.look s k
        rw [(Ini.bindings_last _ _ _ _).2 hl] at this
        exact this

/-! ### histories -/

theorem sections_append (ss : List Val) (a b : List Act) :
    sections ss (a ++ b) = sections (sections ss a) b := by
  induction a generalizing ss with
  | nil => rfl
  | cons x a ih => cases x <;> simp [sections, ih]

theorem proper_append (a b : List Act) : ∀ (ss : List Val), Proper ss.length (a ++ b) →
    Proper ss.length a ∧ Proper (sections ss a).length b := by
  induction a with
  | nil => intro ss h; exact ⟨trivial, h⟩
  | cons x a ih =>
    intro ss h
    cases x with
    | create sec =>
      obtain ⟨h1, h2⟩ := h
      obtain ⟨h3, h4⟩ := ih (ss ++ [sec]) (by simpa using h2)
      exact ⟨⟨h1, by simpa using h3⟩, h4⟩
    | select o sec =>
      obtain ⟨h0, h1, h2⟩ := h
      obtain ⟨h3, h4⟩ := ih (ss.set o sec) (by simpa using h2)
      exact ⟨⟨h0, h1, by simpa using h3⟩, h4⟩
    | file l => exact ⟨⟨h.1, (ih ss h.2).1⟩, (ih ss h.2).2⟩
    | set o e v => exact ⟨⟨h.1, h.2.1, (ih ss h.2.2).1⟩, (ih ss h.2.2).2⟩
    | look o e => exact ⟨⟨h.1, h.2.1, (ih ss h.2.2).1⟩, (ih ss h.2.2).2⟩

theorem sections_proper (a : List Act) : ∀ (ss : List Val), (∀ s ∈ ss, IsSection s) →
    Proper ss.length a → ∀ s ∈ sections ss a, IsSection s := by
  induction a with
  | nil => intro ss h _; exact h
  | cons x a ih =>
    intro ss h hp
    cases x with
    | create sec =>
      refine ih _ ?_ (by simpa using hp.2)
      intro s hs
      rcases List.mem_append.1 hs with hs | hs
      · exact h s hs
      · rw [List.mem_singleton.1 hs]; exact hp.1
    | select o sec =>
      refine ih _ ?_ (by simpa using hp.2.2)
      intro s hs
      rcases List.mem_or_eq_of_mem_set hs with hs | rfl
      · exact h s hs
      · exact hp.2.1
    | file l => exact ih ss h hp.2
    | set o e v => exact ih ss h hp.2.2
    | look o e => exact ih ss h hp.2.2

theorem latest_snoc (as : List Act) (x : Act) (sec entry v : Val) :
    Latest (as ++ [x]) sec entry v ↔ Stores (sections [] as) x sec entry v ∨
      (∀ w, ¬ Stores (sections [] as) x sec entry w) ∧ Latest as sec entry v := by
  constructor
  · rintro ⟨a, y, b, h, hs, hl⟩
    rcases List.eq_nil_or_concat b with rfl | ⟨b', z, rfl⟩
    · left
      obtain ⟨rfl, h2⟩ := List.append_inj' h rfl
      cases h2
      exact hs
    · right
      have h' : as ++ [x] = (a ++ y :: b') ++ [z] := by rw [h]; simp
      obtain ⟨rfl, h2⟩ := List.append_inj' h' rfl
      cases h2
      refine ⟨fun w => hl b' x [] w (by simp), a, y, b', rfl, hs, ?_⟩
      intro b1 y' b2 w hb
      exact hl b1 y' (b2 ++ [x]) w (by rw [hb]; simp)
  · rintro (h | ⟨hn, a, y, b, rfl, hs, hl⟩)
    · exact ⟨as, x, [], rfl, h, by intro b1 y b2 w hb; simp at hb⟩
    · refine ⟨a, y, b ++ [x], by simp, hs, ?_⟩
      intro b1 y' b2 w hb
      rcases List.eq_nil_or_concat b2 with rfl | ⟨b', z, rfl⟩
      · obtain ⟨rfl, h2⟩ := List.append_inj' hb rfl
        cases h2
        exact hn w
      · have h' : b ++ [x] = (b1 ++ y' :: b') ++ [z] := by rw [hb]; simp
        obtain ⟨h1, h2⟩ := List.append_inj' h' rfl
        exact hl b1 y' b' w h1

/-- the call that performs an act -/
def toCall : Act → Call
  | .create sec => .create sec
  | .select o sec => .select o sec
  | .file lines => .file (fileText lines)
  | .set o entry v => .set o entry v
  | .look o entry => .look o entry

theorem runAll_append (fill : UInt8) (n fuel : Nat) (st : State) (a b : List Call) :
    runAll fill n fuel st (a ++ b) = (runAll fill n fuel st a).bind fun st => runAll fill n fuel st b := by
  induction a generalizing st with
  | nil => rfl
  | cons c a ih =>
    simp only [List.cons_append, runAll]
    cases c.run fill n fuel st <;> first | rfl | exact ih _

/-- what the store holds after a history -/
structure Holds (st : State) (as : List Act) : Prop where
  secs : st.secs = sections [] as
  inv : ∃ m, Inv st.conf m ∧ ∀ sec entry v, IsKey sec → IsKey entry →
    (m (code sec) (code entry) = some v ↔ Latest as sec entry v)

theorem holds_start : Holds .start [] := by
  refine ⟨rfl, _, Inv.empty, ?_⟩
  intro sec entry v _ _
  constructor
  · intro h; cases h
  · rintro ⟨a, x, b, h, -⟩; simp at h

theorem no_store {st : State} {as : List Act} {x : Act} {conf secs} (h : Holds st as)
    (hx : ∀ sec entry w, ¬ Stores (sections [] as) x sec entry w)
    (hi : ∀ m, Inv st.conf m → Inv conf m) (hs : secs = sections (sections [] as) [x]) :
    Holds ⟨conf, secs⟩ (as ++ [x]) := by
  obtain ⟨m, hm, hl⟩ := h.inv
  refine ⟨by rw [sections_append]; exact hs, m, hi m hm, ?_⟩
  intro sec entry v k1 k2
  rw [hl sec entry v k1 k2, latest_snoc]
  constructor
  · intro h; exact .inr ⟨fun w => hx _ _ _, h⟩
  · rintro (h | ⟨-, h⟩)
    · exact (hx _ _ _ h).elim
    · exact h

theorem section_inv {n : Nat} {st : State} {as : List Act} (h : Holds st as) (sec : Val)
    (hs : IsSection sec) : ∃ ps v, section_ (n + 2) st.conf sec = .ok (ps, v) ∧
      (∀ m, Inv st.conf m → Inv ps m) := by
  obtain ⟨m, hm, -⟩ := h.inv
  obtain ⟨ps, v, e, -, -⟩ := section_spec (n := n) hm sec hs
  refine ⟨ps, v, e, fun m' hm' => ?_⟩
  obtain ⟨ps', v', e', hi, -⟩ := section_spec (n := n) hm' sec hs
  rw [e] at e'
  cases e'
  exact hi

/-- looking up after a history -/
theorem lookup_spec {n : Nat} {st : State} {as : List Act} (h : Holds st as)
    (hsec : ∀ s ∈ st.secs, IsSection s) (o : Nat) (sec : Val) (ho : st.secs[o]? = some sec)
    (entry : Val) (he : IsKey entry) :
    ∃ ps r, lookup (n + 2) st o entry = .ok ({ st with conf := ps }, r) ∧
      (∀ m, Inv st.conf m → Inv ps m) ∧ (sec = .nil → r = none) ∧
      (IsKey sec → ∀ v, r = some v ↔ Latest as sec entry v) := by
  have hs : IsSection sec := hsec sec (List.mem_of_getElem? ho)
  obtain ⟨m, hm, hl⟩ := h.inv
  obtain ⟨ps, v, e, hi⟩ := section_inv (n := n) h sec hs
  obtain ⟨ps', v', e', -, hv⟩ := section_spec (n := n) hm sec hs
  rw [e] at e'
  cases e'
  rcases hs with rfl | hk
  · rcases hv with ⟨rfl, -⟩ | ⟨q, rfl, -⟩
    · refine ⟨ps, none, ?_, hi, fun _ => rfl, fun h => h.elim⟩
      simp only [lookup, State.sec, ho, Outcome.bind_ok, e, find]
    · cases e
  · refine ⟨ps, m (code sec) (code entry), ?_, hi, ?_, ?_⟩
    · simp only [lookup, State.sec, ho, Outcome.bind_ok, e, find_spec hk hv entry he]
    · rintro rfl; exact hk.elim
    · intro _ v; exact hl sec entry v hk he

theorem run_step (fill : UInt8) (n fuel : Nat) (st : State) (as : List Act) (x : Act)
    (h : Holds st as) (hsec : ∀ s ∈ st.secs, IsSection s) (hp : Proper st.secs.length [x])
    (hf : ∀ lines, x = .file lines → lines.length < fuel) :
    ∃ st', (toCall x).run fill (n + 2) fuel st = .ok st' ∧ Holds st' (as ++ [x]) := by
  have hsecs := h.secs
  cases x with
  | create sec =>
    obtain ⟨ps, v, e, hi⟩ := section_inv (n := n) h sec hp.1
    refine ⟨⟨ps, st.secs ++ [sec]⟩, ?_, no_store h (by rintro _ _ _ ⟨⟩) hi ?_⟩
    · simp [toCall, Call.run, Config.create, configSection, e]
    · rw [hsecs]; rfl
  | select o sec =>
    obtain ⟨ps, v, e, hi⟩ := section_inv (n := n) h sec hp.2.1
    refine ⟨⟨ps, st.secs.set o sec⟩, ?_, no_store h (by rintro _ _ _ ⟨⟩) hi ?_⟩
    · obtain ⟨s, hs⟩ : ∃ s, st.secs[o]? = some s := ⟨_, List.getElem?_eq_getElem hp.1⟩
      simp [toCall, Call.run, configSection, e, State.sec, hs]
    · rw [hsecs]; rfl
  | file lines =>
    obtain ⟨cnf, e1, hw, ha, hl⟩ := read_spec fill n fuel lines hp.1 (hf _ rfl)
    obtain ⟨m, hm, hml⟩ := h.inv
    obtain ⟨ps, e2, hi⟩ := mergeSections_spec n cnf st.conf m hm hw ha
    refine ⟨⟨ps, st.secs⟩, ?_, ?_, _, hi, ?_⟩
    · simp [toCall, Call.run, configFile, e1, e2]
    · rw [sections_append, hsecs]; rfl
    · intro sec entry v k1 k2
      rw [latest_snoc, ← hl _ sec entry v k1 k2, ← hml sec entry v k1 k2]
      cases hc : look cnf (code sec) (code entry) with
      | some w =>
        simp only [Option.some.injEq]
        constructor
        · intro h; exact .inl h
        · rintro (h | ⟨h, -⟩)
          · exact h
          · exact (h w ((hl _ sec entry w k1 k2).1 hc)).elim
      | none =>
        simp only [reduceCtorEq, false_or, iff_and_self]
        intro _ w hw'
        rw [← hl _ sec entry w k1 k2, hc] at hw'
        cases hw'
  | set o entry v =>
    obtain ⟨s, hs⟩ : ∃ s, st.secs[o]? = some s := ⟨_, List.getElem?_eq_getElem hp.1⟩
    rcases hsec s (List.mem_of_getElem? hs) with rfl | hk
    · refine ⟨st, ?_, no_store h ?_ (fun _ h => h) ?_⟩
      · simp [toCall, Call.run, configSet, State.sec, hs, Val.defined]
      · intro sec e w hst
        cases hst with
        | set _ s' _ _ _ _ h1 h2 _ =>
          rw [← hsecs, hs] at h1
          cases h1
          cases sec <;> simp [SameKey] at h2
      · rw [hsecs]; rfl
    · obtain ⟨m, hm, hml⟩ := h.inv
      obtain ⟨ps, e0, hi⟩ := assign_spec n st.conf m hm s entry v hk hp.2.1
      refine ⟨⟨ps, st.secs⟩, ?_, ?_, _, hi, ?_⟩
      · have hd : s.defined = true := (isKey_class n).defined s hk
        simp [toCall, Call.run, configSet, State.sec, hs, hd, e0]
      · rw [sections_append, hsecs]; rfl
      · intro sec e w k1 k2
        have hst : ∀ w, Stores (sections [] as) (.set o entry v) sec e w ↔
            (code sec = code s ∧ code e = code entry) ∧ w = v := by
          intro w
          constructor
          · intro hst
            cases hst with
            | set _ s' _ _ _ _ h1 h2 h3 =>
              rw [← hsecs, hs] at h1
              cases h1
              exact ⟨⟨((Order.sameKey_iff hk k1).1 h2).symm, ((Order.sameKey_iff hp.2.1 k2).1 h3).symm⟩, rfl⟩
          · rintro ⟨⟨h1, h2⟩, rfl⟩
            exact .set o s entry sec e w (by rw [← hsecs]; exact hs)
              ((Order.sameKey_iff hk k1).2 h1.symm) ((Order.sameKey_iff hp.2.1 k2).2 h2.symm)
        rw [latest_snoc, ← hml sec e w k1 k2]
        simp only [hst, upd]
        by_cases hc : code sec = code s ∧ code e = code entry
        · simp [hc, eq_comm]
        · simp [hc]
  | look o entry =>
    obtain ⟨s, hs⟩ : ∃ s, st.secs[o]? = some s := ⟨_, List.getElem?_eq_getElem hp.1⟩
    obtain ⟨ps, r, e, hi, -⟩ := lookup_spec (n := n) h hsec o s hs entry hp.2.1
    refine ⟨⟨ps, st.secs⟩, ?_, no_store h (by rintro _ _ _ ⟨⟩) hi ?_⟩
    · simp only [toCall, Call.run, config, e, Outcome.bind_ok]
      cases r <;> rfl
    · rw [hsecs]; rfl

theorem run_all (fill : UInt8) (n fuel : Nat) (as : List Act) (hp : Proper 0 as)
    (hf : ∀ lines, .file lines ∈ as → lines.length < fuel) :
    ∃ st, runAll fill (n + 2) fuel .start (as.map toCall) = .ok st ∧ Holds st as ∧
      ∀ s ∈ st.secs, IsSection s := by
  induction as using List.reverseRecOn with
  | nil => exact ⟨.start, rfl, holds_start, by simp [State.start]⟩
  | append_singleton as x ih =>
    obtain ⟨h1, h2⟩ := proper_append as [x] [] hp
    obtain ⟨st, e, h, hs⟩ := ih h1 (fun l hl => hf l (by simp [hl]))
    obtain ⟨st', e', h'⟩ := run_step fill n fuel st as x h hs (by rw [h.secs]; exact h2)
      (fun l hl => hf l (by simp [hl]))
    refine ⟨st', ?_, h', ?_⟩
    · rw [List.map_append, runAll_append, e]
      show runAll fill (n + 2) fuel st [toCall x] = _
      simp only [runAll, e', Outcome.bind_ok]
    · rw [h'.secs]
      exact sections_proper _ [] (by simp) hp

end Libube.Config

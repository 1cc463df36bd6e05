import Verif.Lemmas.GetLine
import Verif.Lemmas.MapRun
import Verif.Lemmas.StringFns
import Verif.Model.Ini
import Verif.Spec.Ini

/-! # Lemmas about reading INI files -/

namespace Libube.Ini

open Libube Libube.CString Libube.StringFns Libube.StringSpec Libube.IniSpec Libube.OrderSpec
open Libube.Order (KeyClass WF code isKey_class mapSet_spec)
open Libube.Maps (step mapRef_get)

/-! ### strip -/

theorem takeWhile_blank (a r : Bytes) (ha : Blank a) (hr : ∀ x, r.head? = some x → ¬ IsSpace x) :
    (a ++ r).takeWhile isspace = a := by
  rw [List.takeWhile_append_of_pos (fun x hx => (isspace_iff x).2 (ha x hx))]
  cases r with
  | nil => simp
  | cons c r =>
    rw [List.takeWhile_cons_of_neg (by simp [(not_isspace_iff c).2 (hr c rfl)])]; simp

theorem strip_exact (a r b : Bytes) (ha : Blank a) (hb : Blank b) (hr : Trimmed r) (hne : r ≠ []) :
    stripInPlace (a ++ r ++ b) = .ok r := by
  refine stripInPlace_eq _ a r b rfl ?_ ?_
  · rw [List.append_assoc, takeWhile_blank a (r ++ b) ha]
    intro x hx
    refine hr.1 x ?_
    obtain ⟨c, t, rfl⟩ := List.exists_cons_of_ne_nil hne
    simpa using hx
  · have : (a ++ r ++ b).reverse = b.reverse ++ (r.reverse ++ a.reverse) := by simp
    rw [this, takeWhile_blank]
    · simp
    · intro x hx; exact hb x (by simpa using hx)
    · intro x hx
      refine hr.2 x ?_
      rw [← List.head?_reverse]
      obtain ⟨c, t, h⟩ := List.exists_cons_of_ne_nil (List.reverse_ne_nil_iff.2 hne)
      rw [h] at hx ⊢
      simpa using hx

theorem strip_trimmed (a r b : Bytes) (ha : Blank a) (hb : Blank b) (hr : Trimmed r) (h : r = [] → a = [] ∧ b = []) :
    stripInPlace (a ++ r ++ b) = .ok r := by
  by_cases hne : r = []
  · obtain ⟨rfl, rfl⟩ := h hne
    subst hne; decide
  · exact strip_exact a r b ha hb hr hne

/-- what strip leaves of a line beginning, after white space, with `c` -/
theorem strip_first (pre : Bytes) (c : UInt8) (rest : Bytes) (hp : Blank pre) (hc : ¬ IsSpace c) :
    ∃ r b, stripInPlace (pre ++ c :: rest) = .ok (c :: r) ∧ rest = r ++ b ∧ Blank b := by
  obtain ⟨a, r, b, h1, h2, h3, h4, h5, h6, h7⟩ := strip_decomp (pre ++ c :: rest) ⟨c, by simp, hc⟩
  have ha : a = pre := by
    rw [h2]; exact takeWhile_blank _ _ hp (by simpa using hc)
  have hrb : c :: rest = r ++ b := by
    rw [ha, List.append_assoc] at h1
    exact List.append_cancel_left h1
  have := stripInPlace_eq _ a r b h1 h2 h3
  cases r with
  | nil =>
    exfalso
    rw [List.nil_append] at hrb
    exact hc (h5 c (by rw [← hrb]; simp))
  | cons d r =>
    simp only [List.cons_append, List.cons.injEq] at hrb
    obtain ⟨rfl, hrb⟩ := hrb
    exact ⟨r, b, this, hrb, h5⟩

/-! ### finding the closing bracket -/

theorem eq_char (n : Nat) (a b : UInt8) : eq (n + 1) (.char a) (.char b) = .ok (decide (a = b)) := by
  have h1 : (Val.char a).type = (Val.char b).type := rfl
  have h2 : (Val.char a).size = (Val.char b).size := rfl
  simp only [eq, neq, h1, h2]
  by_cases h : a = b <;> simp [h]

theorem indexLoop_char (n : Nat) (c : UInt8) (a b : Bytes) (i : Nat) (ha : c ∉ a) :
    indexLoop (n + 1) (.char c) i ((a ++ c :: b).map .char) = .ok ((i + a.length : Nat) : Int) := by
  induction a generalizing i with
  | nil => simp [indexLoop, eq_char]
  | cons x a ih =>
    simp only [List.mem_cons, not_or] at ha
    simp only [List.cons_append, List.map_cons, indexLoop, eq_char, Outcome.bind_ok]
    rw [if_neg (by simpa using fun h => ha.1 h.symm), ih (i + 1) ha.2]
    simp only [List.length_cons]
    congr 2; omega

theorem index_bracket (n : Nat) (name b : Bytes) (h : (93 : UInt8) ∉ name) :
    index (n + 1) (.chars (91 :: name ++ 93 :: b)) (.char 93) = .ok ((name.length + 1 : Nat) : Int) := by
  have : (Val.chars (91 :: name ++ 93 :: b)).items = ((91 :: name) ++ 93 :: b).map .char := rfl
  simp only [index]
  rw [this, indexLoop_char n 93 (91 :: name) b 0 (by simpa using h)]
  simp

/-! ### cutting at the separator -/

theorem contains_single (s : Bytes) (c : UInt8) : Contains s [c] ↔ c ∈ s := by
  constructor
  · rintro ⟨a, b, rfl⟩; simp
  · intro h
    obtain ⟨a, b, rfl⟩ := List.append_of_mem h
    exact ⟨a, b, by simp⟩

theorem firstAt_single (a b : Bytes) (c : UInt8) (h : c ∉ a) : FirstAt (a ++ [c] ++ b) [c] a b := by
  refine ⟨rfl, ?_⟩
  intro a' b' he
  by_contra hl
  have hl : a'.length < a.length := by omega
  have h1 : (a ++ [c] ++ b)[a'.length]? = some c := by rw [he]; simp
  rw [List.append_assoc, List.getElem?_append_left hl] at h1
  exact h (List.mem_of_getElem? h1)

theorem takeWhile_ne_append (a b : Bytes) (c : UInt8) (h : c ∉ a) :
    (a ++ [c] ++ b).takeWhile (· ≠ c) = a := by
  rw [List.append_assoc, List.takeWhile_append_of_pos (by
    intro x hx; simp; rintro rfl; exact h hx)]
  simp

theorem takeWhile_ne_self (a : Bytes) (c : UInt8) (h : c ∉ a) : a.takeWhile (· ≠ c) = a := by
  rw [List.takeWhile_eq_self_iff]
  intro x hx; simp; rintro rfl; exact h hx

/-- the first two pieces of a split at a character -/
theorem splits_two (a b : Bytes) (c : UInt8) (h : c ∉ a) (ps : List Bytes)
    (hs : Splits [c] none (a ++ [c] ++ b) ps) :
    ∃ ps', ps = a :: b.takeWhile (· ≠ c) :: ps' := by
  cases hs with
  | whole _ _ hn => exact absurd ((contains_single _ c).2 (by simp)) hn
  | cut _ _ p rest ps _ hf hs =>
    obtain ⟨rfl, rfl⟩ := firstAt_unique hf (firstAt_single a b c h)
    generalize hn : Option.map (fun x => x - 1) (none : Option Nat) = cuts at hs
    cases hs with
    | whole _ _ hn =>
      exact ⟨[], by rw [takeWhile_ne_self _ c (fun h => hn ((contains_single _ c).2 h))]⟩
    | limit => simp at hn
    | cut _ _ p' rest' ps' _ hf' _ =>
      refine ⟨ps', ?_⟩
      have h1 := hf'.1
      have h2 := firstAt_not_contains (by simp) hf'
      rw [contains_single] at h2
      rw [h1, takeWhile_ne_append _ _ _ h2]

theorem splits_one (s : Bytes) (c : UInt8) (h : c ∉ s) (ps : List Bytes)
    (hs : Splits [c] none s ps) : ps = [s] := by
  cases hs with
  | whole => rfl
  | cut _ _ p rest ps _ hf hs =>
    exact absurd ((contains_single _ c).1 (contains_of_firstAt hf)) h

theorem cut_spec (a b : Bytes) (sep : UInt8) (fuel : Nat) (h0 : (0 : UInt8) ∉ a) (h0' : (0 : UInt8) ∉ b)
    (hs : sep = 61 ∧ 61 ∉ a ∨ sep = 58 ∧ 61 ∉ a ∧ 58 ∉ a ∧ 61 ∉ b)
    (hf : (a ++ [sep] ++ b).length < fuel) :
    cut fuel (a ++ [sep] ++ b) = .ok (a, b.takeWhile (· ≠ sep)) := by
  have hz : (0 : UInt8) ∉ a ++ [sep] ++ b := by
    rcases hs with ⟨rfl, -⟩ | ⟨rfl, -⟩ <;> simp [h0, h0']
  unfold cut
  obtain ⟨ps, e1, e2⟩ := split_eq _ [61] fuel 0 hz (by simp) (by simp) hf
  rw [e1, Outcome.bind_ok]
  rw [if_pos rfl] at e2
  rcases hs with ⟨rfl, hs⟩ | ⟨rfl, hs1, hs2, hs3⟩
  · obtain ⟨ps', rfl⟩ := splits_two a b 61 hs ps e2
    simp
  · have := splits_one _ 61 (by simp [hs1, hs3]) ps e2
    subst this
    obtain ⟨ps, e1, e2⟩ := split_eq _ [58] fuel 0 hz (by simp) (by simp) hf
    rw [if_pos rfl] at e2
    rw [if_pos (by simp), e1, Outcome.bind_ok]
    obtain ⟨ps', rfl⟩ := splits_two a b 58 hs2 ps e2
    simp

/-! ### the map of maps -/

/-- string keys -/
def IsStr (v : Val) : Prop := ∃ s, v = .chars s ∧ (0 : UInt8) ∉ s

theorem str_class (n : Nat) : KeyClass (n + 2) IsStr code where
  lt_ok a b := by
    rintro ⟨s, rfl, hs⟩ ⟨t, rfl, ht⟩; exact (isKey_class n).lt_ok _ _ hs ht
  neq_ok a b := by
    rintro ⟨s, rfl, hs⟩ ⟨t, rfl, ht⟩; exact (isKey_class n).neq_ok _ _ hs ht
  defined a := by rintro ⟨s, rfl, hs⟩; rfl

theorem code_chars (s t : Bytes) : code (.chars s) = code (.chars t) ↔ s = t := by
  constructor
  · intro h
    simp only [code, List.cons.injEq, true_and] at h
    refine List.map_injective_iff.2 ?_ h
    intro a b hab
    exact UInt8.toNat_inj.1 (by simpa using hab)
  · rintro rfl; rfl

theorem get_of_mem {K cd} {ps : List (Val × Val)} (h : WF K cd ps) {p} (hp : p ∈ ps) :
    Order.get cd ps (cd p.1) = some p.2 := by
  obtain ⟨a, b, rfl⟩ := List.append_of_mem hp
  exact Order.get_middle h

theorem mem_of_get {cd} {ps : List (Val × Val)} {c v} (h : Order.get cd ps c = some v) :
    ∃ p ∈ ps, cd p.1 = c ∧ p.2 = v := by
  unfold Order.get at h
  cases hf : ps.find? (fun p => decide (cd p.1 = c)) with
  | none => rw [hf] at h; cases h
  | some p =>
    rw [hf] at h
    exact ⟨p, List.mem_of_find?_eq_some hf, by simpa using List.find?_some hf, by simpa using h⟩

/-- a section: a non-empty map from strings to strings -/
structure Section (q : List (Val × Val)) : Prop where
  wf : WF IsStr code q
  ne : q ≠ []
  vals : ∀ c v, Order.get code q c = some v → ∃ b, v = .chars b

/-- the value of a key of a section -/
def look (ps : List (Val × Val)) (sec key : Bytes) : Option Val :=
  match Order.get code ps (code (.chars sec)) with
  | some (.map q) => Order.get code q (code (.chars key))
  | _ => none

structure Inv (ps : List (Val × Val)) (m : Bytes → Bytes → Option Bytes) : Prop where
  wf : WF IsStr code ps
  sections : ∀ c v, Order.get code ps c = some v → ∃ q, v = .map q ∧ Section q
  look : ∀ sec key, look ps sec key = (m sec key).map Val.chars

/-- updating -/
def upd (m : Bytes → Bytes → Option Bytes) (sec key val : Bytes) : Bytes → Bytes → Option Bytes :=
  fun s k => if s = sec ∧ k = key then some val else m s k

theorem set_section {n : Nat} (q : List (Val × Val)) (hq : WF IsStr code q)
    (hv : ∀ c v, Order.get code q c = some v → ∃ b, v = .chars b) (key val : Bytes)
    (hk : (0 : UInt8) ∉ key) :
    ∃ q', mapSet (n + 2) q (.chars key) (.chars val) = .ok q' ∧ Section q' ∧
      ∀ k, Order.get code q' (code (.chars k)) =
        if k = key then some (.chars val) else Order.get code q (code (.chars k)) := by
  obtain ⟨q', e, w, g, -⟩ := mapSet_spec (str_class n) q (.chars key) (.chars val) ⟨key, rfl, hk⟩ hq
  refine ⟨q', e, ⟨w, ?_, ?_⟩, ?_⟩
  · rintro rfl
    have := g (code (.chars key))
    rw [if_pos rfl] at this
    cases this
  · intro c v h
    rw [g] at h
    split at h
    · exact ⟨val, by simpa using h.symm⟩
    · exact hv c v h
  · intro k
    rw [g]
    simp only [code_chars]

theorem assign_spec (n : Nat) (ps : List (Val × Val)) (m) (h : Inv ps m) (sec key val : Bytes)
    (hs : (0 : UInt8) ∉ sec) (hk : (0 : UInt8) ∉ key) :
    ∃ ps', assign (n + 2) ps sec key val = .ok ps' ∧ Inv ps' (upd m sec key val) := by
  obtain ⟨ps1, i, p, e1, w1, e2, e3, e4, g⟩ :=
    mapRef_get (str_class n) ps (.chars sec) ⟨sec, rfl, hs⟩ h.wf
  obtain ⟨hi, hpi⟩ := List.getElem?_eq_some_iff.1 e2
  have hsplit : ps1 = ps1.take i ++ p :: ps1.drop (i + 1) := by
    rw [← hpi, List.cons_getElem_drop_succ, List.take_append_drop]
  generalize ps1.take i = a, ps1.drop (i + 1) = b at hsplit
  have hset : ∀ v, ∃ a' b', ps1.set i (p.1, v) = a' ++ (p.1, v) :: b' ∧ ps1 = a' ++ p :: b' := by
    intro v
    refine ⟨ps1.take i, ps1.drop (i + 1), ?_, ?_⟩
    · rw [List.set_eq_take_append_cons_drop, if_pos hi]
    · rw [← hpi, List.cons_getElem_drop_succ, List.take_append_drop]
  -- after storing a section
  have key' : ∀ q q', (match Order.get code ps (code (.chars sec)) with
        | some (.map r) => r = q | _ => q = []) → Section q' →
      (∀ k, Order.get code q' (code (.chars k)) =
        if k = key then some (.chars val) else Order.get code q (code (.chars k))) →
      Inv (ps1.set i (p.1, .map q')) (upd m sec key val) := by
    intro q q' hq hq' hg
    obtain ⟨a', b', e5, e6⟩ := hset (.map q')
    have hw : WF IsStr code (a' ++ (p.1, Val.map q') :: b') := (e6 ▸ w1).replace
    have hget : ∀ c, Order.get code (ps1.set i (p.1, .map q')) c =
        if c = code (.chars sec) then some (.map q') else Order.get code ps c := by
      intro c
      rw [e5]
      split
      · rename_i hc
        rw [hc, ← e3]; exact Order.get_middle hw
      · rename_i hc
        rw [Order.get_middle_ne (by simpa [e3] using fun h => hc h.symm),
          ← Order.get_middle_ne (q := p) (by simpa [e3] using fun h => hc h.symm), ← e6, g]
        simp [step, hc]
    refine ⟨by rw [e5]; exact hw, ?_, ?_⟩
    · intro c v hv
      rw [hget] at hv
      split at hv
      · exact ⟨q', by simpa using hv.symm, hq'⟩
      · exact h.sections c v hv
    · intro s k
      unfold look
      rw [hget]
      by_cases hsec : s = sec
      · subst hsec
        rw [if_pos rfl]
        simp only [hg, upd, true_and]
        split
        · rfl
        · rw [← h.look]
          unfold look
          cases hx : Order.get code ps (code (.chars s)) with
          | none => simp only [hx] at hq; subst hq; rfl
          | some v =>
            obtain ⟨r, rfl, -⟩ := h.sections _ _ hx
            simp only [hx] at hq; subst hq; rfl
      · rw [if_neg (by rw [code_chars]; exact hsec)]
        have := h.look s k
        unfold look at this
        rw [this]
        simp [upd, hsec]
  unfold assign
  rw [e1, Outcome.bind_ok]
  simp only [e2]
  have hp2 : (Order.get code ps (code (.chars sec)) = none ∧ p.2 = .nil) ∨
      Order.get code ps (code (.chars sec)) = some p.2 := by
    have := g (code (.chars sec))
    rw [e4] at this
    simp only [step, if_pos rfl] at this
    cases hx : Order.get code ps (code (.chars sec)) with
    | none => left; simp only [hx] at this; exact ⟨rfl, by simpa using this⟩
    | some v => right; simp only [hx] at this; exact this.symm
  obtain ⟨pk, pv⟩ := p
  rcases hp2 with ⟨h1, h2⟩ | h1
  · simp only at h2
    subst h2
    obtain ⟨q', e, hq', hg⟩ := set_section (n := n) [] WF.nil (by intro c v h; cases h) key val hk
    simp only [e, Outcome.bind_ok]
    exact ⟨_, rfl, key' [] q' (by rw [h1]) hq' hg⟩
  · obtain ⟨q, hq, hsec⟩ := h.sections _ _ h1
    simp only at hq
    subst hq
    obtain ⟨q', e, hq', hg⟩ := set_section (n := n) q hsec.wf hsec.vals key val hk
    simp only [e, Outcome.bind_ok]
    exact ⟨_, rfl, key' q q' (by rw [h1]) hq' hg⟩

/-! ### lines -/

/-- the effect of a line on the bindings -/
def itemStep (sec : Bytes) (m : Bytes → Bytes → Option Bytes) : Item → Bytes → Bytes → Option Bytes
  | .entry _ key _ _ _ value _ => upd m sec key value
  | _ => m

theorem line_entry (n : Nat) (ps : List (Val × Val)) (sec pre key gap : Bytes) (sep : UInt8)
    (gap' value post : Bytes) (hv : (Item.entry pre key gap sep gap' value post).Valid)
    (v1 : Bytes) (hv1 : ∃ g1 g2, (if value = [] then [] else gap' ++ value).takeWhile (· ≠ sep) = g1 ++ v1 ++ g2
      ∧ Blank g1 ∧ Blank g2 ∧ Trimmed v1 ∧ (v1 = [] → g1 = [] ∧ g2 = [])) :
    line n ps sec (Item.entry pre key gap sep gap' value post).text =
      (assign n ps sec key v1 >>= fun ps => .ok (ps, sec)) := by
  obtain ⟨hb1, hb2, hb3, hb4, ht1, ht2, hne, hh, hz1, hz2, hsep⟩ := hv
  have hsepns : ¬ IsSpace sep := by
    rcases hsep with ⟨rfl, -⟩ | ⟨rfl, -⟩ <;> decide
  have hbnul : ∀ {s : Bytes}, Blank s → ∀ c : UInt8, ¬ IsSpace c → c ∉ s :=
    fun hs c hc hm => hc (hs c hm)
  generalize htail : (if value = [] then [] else gap' ++ value) = tail at hv1
  -- the stripped line
  have hstrip : stripInPlace (Item.entry pre key gap sep gap' value post).text =
      .ok (key ++ gap ++ [sep] ++ tail) := by
    obtain ⟨k0, kt, rfl⟩ := List.exists_cons_of_ne_nil hne
    by_cases hval : value = []
    · subst hval
      rw [if_pos rfl] at htail; subst htail
      have : (Item.entry pre (k0 :: kt) gap sep gap' [] post).text =
          pre ++ (k0 :: kt ++ gap ++ [sep] ++ []) ++ (gap' ++ post) := by simp [Item.text]
      rw [this]
      refine strip_exact _ _ _ hb1 ?_ ?_ (by simp)
      · intro x hx; rcases List.mem_append.1 hx with h | h
        · exact hb3 x h
        · exact hb4 x h
      · refine ⟨?_, ?_⟩
        · intro x hx; exact ht1.1 x (by simpa using hx)
        · intro x hx
          rw [List.append_nil, List.getLast?_append] at hx
          simp only [List.getLast?_singleton, Option.some_or, Option.some.injEq] at hx
          subst hx; exact hsepns
    · rw [if_neg hval] at htail; subst htail
      have : (Item.entry pre (k0 :: kt) gap sep gap' value post).text =
          pre ++ (k0 :: kt ++ gap ++ [sep] ++ (gap' ++ value)) ++ post := by simp [Item.text]
      rw [this]
      refine strip_exact _ _ _ hb1 hb4 ?_ (by simp)
      refine ⟨?_, ?_⟩
      · intro x hx; exact ht1.1 x (by simpa using hx)
      · intro x hx
        rw [← List.append_assoc, List.getLast?_append] at hx
        obtain ⟨y, hy⟩ : ∃ y, value.getLast? = some y := by
          rw [List.getLast?_eq_some_getLast hval]; exact ⟨_, rfl⟩
        rw [hy] at hx
        simp only [Option.some_or, Option.some.injEq] at hx
        subst hx; exact ht2.2 _ hy
  have hcut : cut ((key ++ gap ++ [sep] ++ tail).length + 1) (key ++ gap ++ [sep] ++ tail) =
      .ok (key ++ gap, tail.takeWhile (· ≠ sep)) := by
    have ht : ∀ c : UInt8, ¬ IsSpace c → c ∉ value → c ∉ tail := by
      intro c hc hcv hm
      rw [← htail] at hm
      split at hm
      · simp at hm
      · rcases List.mem_append.1 hm with h | h
        · exact hc (hb3 c h)
        · exact hcv h
    refine cut_spec _ _ _ _ ?_ ?_ ?_ (by omega)
    · simp [hz1, hbnul hb2 0 (by decide)]
    · exact ht 0 (by decide) hz2
    · rcases hsep with ⟨rfl, h⟩ | ⟨rfl, h1, h2, h3⟩
      · left; exact ⟨rfl, by simp [h, hbnul hb2 61 (by decide)]⟩
      · right
        exact ⟨rfl, by simp [h1, hbnul hb2 61 (by decide)], by simp [h2, hbnul hb2 58 (by decide)],
          ht 61 (by decide) h3⟩
  obtain ⟨g1, g2, e1, e2, e3, e4, e5⟩ := hv1
  have hs1 : stripInPlace (key ++ gap) = .ok key := by
    have := strip_exact [] key gap (by intro x hx; cases hx) hb2 ht1 hne
    simpa using this
  have hs2 : stripInPlace (tail.takeWhile (· ≠ sep)) = .ok v1 := by
    rw [e1]; exact strip_trimmed g1 v1 g2 e2 e3 e4 e5
  unfold line
  rw [hstrip, Outcome.bind_ok]
  obtain ⟨k0, kt, rfl⟩ := List.exists_cons_of_ne_nil hne
  obtain ⟨n1, n2, n3⟩ := hh k0 rfl
  simp only [List.cons_append] at hcut hs1 ⊢
  rw [if_neg (by simp [n1, n2]), if_neg n3, hcut]
  simp only [Outcome.bind_ok]
  rw [hs1, Outcome.bind_ok, hs2, Outcome.bind_ok]

theorem line_item (n : Nat) (ps : List (Val × Val)) (m) (hi : Inv ps m) (sec : Bytes)
    (hs : (0 : UInt8) ∉ sec) (i : Item) (hv : i.Valid) (h1 : i.OneSeparator) :
    ∃ ps', line (n + 2) ps sec i.text = .ok (ps', sectionAfter sec [i]) ∧ Inv ps' (itemStep sec m i) ∧
      (0 : UInt8) ∉ sectionAfter sec [i] := by
  cases i with
  | empty => exact ⟨ps, rfl, hi, hs⟩
  | comment pre mark text =>
    obtain ⟨hb, hm⟩ := hv
    have hns : ¬ IsSpace mark := by rcases hm with rfl | rfl <;> decide
    obtain ⟨r, b, e, -, -⟩ := strip_first pre mark text hb hns
    refine ⟨ps, ?_, hi, hs⟩
    simp only [line, Item.text, e, Outcome.bind_ok]
    rw [if_pos hm]; rfl
  | head pre name post =>
    obtain ⟨hb, hz, hc⟩ := hv
    obtain ⟨r, b, e, e2, e3⟩ := strip_first pre 91 (name ++ 93 :: post) hb (by decide)
    -- the closing bracket survives stripping
    obtain ⟨t, rfl⟩ : ∃ t, r = name ++ 93 :: t := by
      have hbn : (93 : UInt8) ∉ b := fun h => absurd (e3 93 h) (by decide)
      have hlen : name.length < r.length := by
        by_contra hl
        have : (name ++ 93 :: post)[name.length]? = some 93 := by simp
        rw [e2, List.getElem?_append_right (by omega)] at this
        exact hbn (List.mem_of_getElem? this)
      have h2 := congrArg (List.take (name.length + 1)) e2
      rw [List.take_append_of_le_length (l₁ := r) (by omega)] at h2
      have h3 : (name ++ 93 :: post).take (name.length + 1) = name ++ [93] := by
        have : name ++ 93 :: post = (name ++ [93]) ++ post := by simp
        rw [this, List.take_left' (by simp)]
      refine ⟨r.drop (name.length + 1), ?_⟩
      rw [h3] at h2
      conv_lhs => rw [← List.take_append_drop (name.length + 1) r, ← h2]
      simp
    refine ⟨ps, ?_, hi, hz⟩
    have htext : (Item.head pre name post).text = pre ++ 91 :: (name ++ 93 :: post) := by
      simp [Item.text]
    have hidx := index_bracket (n + 1) name t hc
    rw [List.cons_append] at hidx
    simp only [line, htext, e, Outcome.bind_ok]
    rw [if_neg (by decide), if_pos trivial, hidx]
    simp only [Outcome.bind_ok]
    rw [if_neg (by omega)]
    simp [sectionAfter]
  | entry pre key gap sep gap' value post =>
    have hv0 := hv
    obtain ⟨hb1, hb2, hb3, hb4, ht1, ht2, hne, hh, hz1, hz2, hsep⟩ := hv
    have hsepns : ¬ IsSpace sep := by
      rcases hsep with ⟨rfl, -⟩ | ⟨rfl, -⟩ <;> decide
    have := line_entry (n + 2) ps sec pre key gap sep gap' value post hv0 value (by
      by_cases hval : value = []
      · subst hval
        exact ⟨[], [], by simp, by simp [Blank], by simp [Blank], ht2, by simp⟩
      · refine ⟨gap', [], ?_, hb3, by simp [Blank], ht2, fun h => absurd h hval⟩
        rw [if_neg hval, takeWhile_ne_self, List.append_nil]
        simp only [List.mem_append, not_or]
        exact ⟨fun h => hsepns (hb3 _ h), h1⟩)
    obtain ⟨ps', e, hi'⟩ := assign_spec n ps m hi sec key value hs hz1
    refine ⟨ps', ?_, hi', hs⟩
    rw [this, e]; rfl

/-! ### files -/

/-- the bindings after some lines -/
def bindings (sec : Bytes) (m : Bytes → Bytes → Option Bytes) : List Item → Bytes → Bytes → Option Bytes
  | [] => m
  | i :: is => bindings (sectionAfter sec [i]) (itemStep sec m i) is

theorem sectionAfter_append (s : Bytes) (a b : List Item) :
    sectionAfter s (a ++ b) = sectionAfter (sectionAfter s a) b := by
  induction a generalizing s with
  | nil => rfl
  | cons i a ih => cases i <;> simp [sectionAfter, ih]

theorem loop_items (fill : UInt8) (n : Nat) (is : List Item) (hv : ∀ i ∈ is, i.Valid)
    (ho : ∀ i ∈ is, i.OneSeparator) (hl : ∀ i ∈ is, (10 : UInt8) ∉ i.text) (ps) (m) (hi : Inv ps m)
    (sec : Bytes) (hs : (0 : UInt8) ∉ sec) (old tail : Bytes) (fuel : Nat) :
    ∃ ps' old', loop fill (n + 2) (is.length + fuel) old
        (is.flatMap (fun i => i.text ++ [10]) ++ tail) ps sec =
        loop fill (n + 2) fuel old' tail ps' (sectionAfter sec is) ∧
      Inv ps' (bindings sec m is) ∧ (0 : UInt8) ∉ sectionAfter sec is := by
  induction is generalizing ps m sec old with
  | nil => exact ⟨ps, old, by simp [sectionAfter], hi, hs⟩
  | cons i is ih =>
    obtain ⟨ps1, e1, hi1, hs1⟩ := line_item n ps m hi sec hs i (hv i (by simp)) (ho i (by simp))
    obtain ⟨ps', old', e2, hi2, hs2⟩ := ih (fun j hj => hv j (by simp [hj]))
      (fun j hj => ho j (by simp [hj])) (fun j hj => hl j (by simp [hj])) ps1 _ hi1 _ hs1 i.text
    have hsec : sectionAfter sec (i :: is) = sectionAfter (sectionAfter sec [i]) is :=
      sectionAfter_append sec [i] is
    refine ⟨ps', old', ?_, hi2, by rw [hsec]; exact hs2⟩
    have ht : (i :: is).flatMap (fun i => i.text ++ [10]) ++ tail =
        i.text ++ 10 :: (is.flatMap (fun i => i.text ++ [10]) ++ tail) := by simp
    have hlen : (i :: is).length + fuel = (is.length + fuel) + 1 := by simp; omega
    rw [ht, hlen, hsec, ← e2]
    simp only [loop, GetLine.getline_line fill old i.text _ (hl i (by simp)), Outcome.bind_ok, e1]

theorem Inv.empty : Inv [] (fun _ _ => none) :=
  ⟨Order.WF.nil, fun _ _ h => (by cases h), fun _ _ => rfl⟩

/-- what the invariant says about the entries -/
theorem Inv.mem {ps m} (hi : Inv ps m) (sec key value : Bytes) :
    (∃ q, (Val.chars sec, Val.map q) ∈ ps ∧ (Val.chars key, Val.chars value) ∈ q) ↔
      m sec key = some value := by
  have hlook := hi.look sec key
  constructor
  · rintro ⟨q, h1, h2⟩
    have g1 := get_of_mem hi.wf h1
    obtain ⟨q', hq', hs⟩ := hi.sections _ _ g1
    cases hq'
    have g2 := get_of_mem hs.wf h2
    simp only [Ini.look, g1, g2] at hlook
    cases hb : m sec key with
    | none => rw [hb] at hlook; cases hlook
    | some v =>
      rw [hb] at hlook
      simp only [Option.map_some, Option.some.injEq, Val.chars.injEq] at hlook
      rw [hlook]
  · intro hb
    rw [hb] at hlook
    unfold Ini.look at hlook
    cases hg : Order.get code ps (code (.chars sec)) with
    | none => rw [hg] at hlook; cases hlook
    | some v =>
      obtain ⟨q, rfl, hs⟩ := hi.sections _ _ hg
      simp only [hg, Option.map_some] at hlook
      obtain ⟨p, hp, hc, hp2⟩ := mem_of_get hg
      obtain ⟨s, hps, -⟩ := hi.wf.keys p hp
      obtain ⟨e, he, hec, he2⟩ := mem_of_get hlook
      obtain ⟨k, hek, -⟩ := hs.wf.keys e he
      rw [hps, code_chars] at hc
      rw [hek, code_chars] at hec
      subst hc; subst hec
      obtain ⟨p1, p2⟩ := p
      obtain ⟨e1, e2⟩ := e
      simp only at hps hp2 hek he2
      subst hps; subst hp2; subst hek; subst he2
      exact ⟨q, hp, he⟩

theorem bindings_append (s m) (a b : List Item) :
    bindings s m (a ++ b) = bindings (sectionAfter s a) (bindings s m a) b := by
  induction a generalizing s m with
  | nil => rfl
  | cons i a ih =>
    have : sectionAfter s (i :: a) = sectionAfter (sectionAfter s [i]) a :=
      sectionAfter_append s [i] a
    simp only [List.cons_append, bindings, ih, this]

theorem lastEntry_snoc (is : List Item) (i : Item) (sec key v : Bytes) :
    LastEntry (is ++ [i]) sec key v ↔
      (sectionAfter [] is = sec ∧ i.Binds key v) ∨
      (¬ (sectionAfter [] is = sec ∧ ∃ w, i.Binds key w) ∧ LastEntry is sec key v) := by
  constructor
  · rintro ⟨a, j, b, he, h1, h2, h3⟩
    rcases List.eq_nil_or_concat b with rfl | ⟨b', j', rfl⟩
    · left
      have := List.append_inj' he (by simp)
      obtain ⟨rfl, hj⟩ := this
      simp only [List.cons.injEq, and_true] at hj
      subst hj
      exact ⟨h1, h2⟩
    · right
      have he : is ++ [i] = (a ++ j :: b') ++ [j'] := by simpa using he
      obtain ⟨rfl, hj⟩ := List.append_inj' he (by simp)
      simp only [List.cons.injEq, and_true] at hj
      subst hj
      refine ⟨?_, a, j, b', rfl, h1, h2, ?_⟩
      · rintro ⟨h4, w, h5⟩
        exact h3 b' i [] w (by simp) h4 h5
      · intro b1 k b2 w hb hsec hbind
        refine h3 b1 k (b2 ++ [i]) w (by simp [hb]) hsec hbind
  · rintro (⟨h1, h2⟩ | ⟨h1, a, j, b, rfl, h2, h3, h4⟩)
    · exact ⟨is, i, [], rfl, h1, h2, by simp⟩
    · refine ⟨a, j, b ++ [i], by simp, h2, h3, ?_⟩
      intro b1 k b2 w hb hsec hbind
      rcases List.eq_nil_or_concat b2 with rfl | ⟨b2', k', rfl⟩
      · obtain ⟨rfl, hj⟩ := List.append_inj' hb (by simp)
        simp only [List.cons.injEq, and_true] at hj
        subst hj
        exact h1 ⟨hsec, w, hbind⟩
      · have hb : b ++ [i] = (b1 ++ k :: b2') ++ [k'] := by simpa using hb
        obtain ⟨rfl, hj⟩ := List.append_inj' hb (by simp)
        exact h4 b1 k b2' w rfl hsec hbind

theorem bindings_last (is : List Item) (sec key v : Bytes) :
    bindings [] (fun _ _ => none) is sec key = some v ↔ LastEntry is sec key v := by
  induction is using List.reverseRecOn generalizing v with
  | nil =>
    constructor
    · intro h; cases h
    · rintro ⟨a, i, b, h, -⟩; simp at h
  | append_singleton is i ih =>
    rw [lastEntry_snoc, bindings_append]
    have : bindings (sectionAfter [] is) (bindings [] (fun _ _ => none) is) [i] =
      itemStep (sectionAfter [] is) (bindings [] (fun _ _ => none) is) i := rfl
    rw [this]
    have hnb : (∀ w, ¬ i.Binds key w) → (itemStep (sectionAfter [] is)
        (bindings [] (fun _ _ => none) is) i = bindings [] (fun _ _ => none) is) →
        (itemStep (sectionAfter [] is) (bindings [] (fun _ _ => none) is) i sec key = some v ↔
        (sectionAfter [] is = sec ∧ i.Binds key v) ∨
        (¬ (sectionAfter [] is = sec ∧ ∃ w, i.Binds key w) ∧ LastEntry is sec key v)) := by
      intro h e
      rw [e, ih]
      constructor
      · intro hl; exact Or.inr ⟨fun ⟨_, w, hw⟩ => h w hw, hl⟩
      · rintro (⟨_, h2⟩ | ⟨_, h2⟩)
        · exact absurd h2 (h v)
        · exact h2
    cases i with
    | empty => exact hnb (by rintro w ⟨_, _, _, _, _, h⟩; cases h) rfl
    | comment _ _ _ => exact hnb (by rintro w ⟨_, _, _, _, _, h⟩; cases h) rfl
    | head _ _ _ => exact hnb (by rintro w ⟨_, _, _, _, _, h⟩; cases h) rfl
    | entry pre key' gap sep gap' value post =>
      have hb : ∀ w, (Item.entry pre key' gap sep gap' value post).Binds key w ↔ key = key' ∧ w = value := by
        intro w
        constructor
        · rintro ⟨_, _, _, _, _, h⟩; cases h; exact ⟨rfl, rfl⟩
        · rintro ⟨rfl, rfl⟩; exact ⟨_, _, _, _, _, rfl⟩
      simp only [itemStep, upd, hb]
      by_cases h : sec = sectionAfter [] is ∧ key = key'
      · rw [if_pos h]
        obtain ⟨rfl, rfl⟩ := h
        simp [eq_comm]
      · rw [if_neg h, ih]
        constructor
        · intro hl
          refine Or.inr ⟨?_, hl⟩
          rintro ⟨h1, w, h2, -⟩; exact h ⟨h1.symm, h2⟩
        · rintro (⟨h1, h2, -⟩ | ⟨-, h2⟩)
          · exact absurd ⟨h1.symm, h2⟩ h
          · exact h2

end Libube.Ini

import Verif.Lemmas.Order
import Mathlib.Data.Nat.Log

/-! # Helper lemmas: binary search, sorting, maps -/

namespace Libube.Order

open Libube Libube.CString Libube.OrderSpec

theorem binaryLoop_done (cmp : Nat → Outcome Bool) (lo hi : Nat) (h : ¬ lo < hi) :
    binaryLoop cmp lo hi = .ok (hi, 0) := by
  rw [binaryLoop, dif_neg h]

theorem binaryLoop_true (cmp : Nat → Outcome Bool) (lo hi : Nat) (h : lo < hi)
    (hc : cmp ((hi - lo) / 2 + lo) = .ok true) :
    binaryLoop cmp lo hi = (do
      let r ← binaryLoop cmp ((hi - lo) / 2 + lo + 1) hi
      .ok (r.1, r.2 + 1)) := by
  rw [binaryLoop, dif_pos h]; simp only [hc]

theorem binaryLoop_false (cmp : Nat → Outcome Bool) (lo hi : Nat) (h : lo < hi)
    (hc : cmp ((hi - lo) / 2 + lo) = .ok false) :
    binaryLoop cmp lo hi = (do
      let r ← binaryLoop cmp lo ((hi - lo) / 2 + lo)
      .ok (r.1, r.2 + 1)) := by
  rw [binaryLoop, dif_pos h]; simp only [hc]

theorem binaryLoop_spec (cmp : Nat → Outcome Bool) (t lo hi : Nat) (h1 : lo ≤ t) (h2 : t ≤ hi)
    (hc : ∀ pos, lo ≤ pos → pos < hi → cmp pos = .ok (decide (pos < t))) :
    ∃ k, binaryLoop cmp lo hi = .ok (t, k) ∧ (lo < hi → k ≤ Nat.log 2 (hi - lo) + 1) := by
  induction hm : hi - lo using Nat.strong_induction_on generalizing lo hi with
  | _ m ih =>
    subst hm
    unfold binaryLoop
    by_cases h : lo < hi
    · rw [dif_pos h]
      simp only
      rw [hc _ (by omega) (by omega)]
      have hlog : ∀ m', m' ≤ (hi - lo) / 2 → 0 < m' → Nat.log 2 m' + 1 ≤ Nat.log 2 (hi - lo) := by
        intro m' hm' h0
        have e : Nat.log 2 (hi - lo) = Nat.log 2 ((hi - lo) / 2) + 1 :=
          Nat.log_of_one_lt_of_le (by omega) (by omega)
        rw [e]
        have := Nat.log_mono_right (b := 2) hm'
        omega
      by_cases hp : (hi - lo) / 2 + lo < t
      · simp only [hp, decide_true]
        obtain ⟨k, hk1, hk2⟩ := ih (hi - ((hi - lo) / 2 + lo + 1)) (by omega)
          ((hi - lo) / 2 + lo + 1) hi (by omega) h2 (fun pos h3 h4 => hc pos (by omega) h4) rfl
        refine ⟨k + 1, by simp [hk1], fun _ => ?_⟩
        by_cases h5 : (hi - lo) / 2 + lo + 1 < hi
        · have := hk2 h5
          have := hlog _ (show hi - ((hi - lo) / 2 + lo + 1) ≤ (hi - lo) / 2 by omega) (by omega)
          omega
        · have hk : binaryLoop cmp ((hi - lo) / 2 + lo + 1) hi = .ok (hi, 0) := by
            unfold binaryLoop; rw [dif_neg h5]
          rw [hk] at hk1
          injection hk1 with hk1
          have : k = 0 := by simpa using (congrArg Prod.snd hk1).symm
          omega
      · simp only [hp, decide_false]
        obtain ⟨k, hk1, hk2⟩ := ih (((hi - lo) / 2 + lo) - lo) (by omega)
          lo ((hi - lo) / 2 + lo) h1 (by omega) (fun pos h3 h4 => hc pos h3 (by omega)) rfl
        refine ⟨k + 1, by simp [hk1], fun _ => ?_⟩
        by_cases h5 : lo < (hi - lo) / 2 + lo
        · have := hk2 h5
          have := hlog _ (show ((hi - lo) / 2 + lo) - lo ≤ (hi - lo) / 2 by omega) (by omega)
          omega
        · have hk : binaryLoop cmp lo ((hi - lo) / 2 + lo) = .ok ((hi - lo) / 2 + lo, 0) := by
            unfold binaryLoop; rw [dif_neg h5]
          rw [hk] at hk1
          injection hk1 with hk1
          have : k = 0 := by simpa using (congrArg Prod.snd hk1).symm
          omega
    · rw [dif_neg h]
      have : hi = t := by omega
      exact ⟨0, by rw [this], fun h' => absurd h' h⟩

/-- A class of values on which `<` is a linear order given by codes. -/
def LtClass (n : Nat) (K : Val → Prop) (cd : Val → List Int) : Prop :=
  ∀ a b, K a → K b → lt n a b = .ok (decide (cd a < cd b))

/-- A class of values on which `<` is a linear order given by codes, and `!=` agrees with it. -/
structure KeyClass (n : Nat) (K : Val → Prop) (cd : Val → List Int) : Prop where
  lt_ok : LtClass n K cd
  neq_ok : ∀ a b, K a → K b → neq n a b = .ok (decide (cd a ≠ cd b))
  defined : ∀ a, K a → a.defined = true

theorem isKey_class (n : Nat) : KeyClass (n + 2) IsKey code where
  lt_ok a b ha hb := lt_key (n + 1) ha hb
  neq_ok a b ha hb := neq_key n ha hb
  defined a ha := by cases a <;> simp_all [IsKey, Val.defined]

variable {K : Val → Prop} {cd : Val → List Int}

theorem binaryCount_split {n : Nat} (hK : LtClass n K cd) (l1 l2 : List Val) (k : Val) (hk : K k)
    (hk1 : ∀ x ∈ l1, K x) (hk2 : ∀ x ∈ l2, K x)
    (h1 : ∀ x ∈ l1, cd x < cd k) (h2 : ∀ x ∈ l2, ¬ cd x < cd k) :
    ∃ c, binaryCount n (l1 ++ l2) k = .ok (l1.length, c) ∧
      (l1 ++ l2 ≠ [] → c ≤ Nat.log 2 (l1 ++ l2).length + 1) ∧ (l1 ++ l2 = [] → c = 0) := by
  unfold binaryCount
  by_cases h : (l1 ++ l2).length = 0
  · rw [if_pos h]
    have : l1 ++ l2 = [] := List.eq_nil_of_length_eq_zero h
    have hl : l1 = [] := by simp_all
    exact ⟨0, by simp [hl], fun hc => absurd this hc, fun _ => rfl⟩
  · rw [if_neg h]
    obtain ⟨c, hc1, hc2⟩ := binaryLoop_spec (fun pos =>
      match (l1 ++ l2)[pos]? with
      | some x => lt n x k
      | none => .ub .outOfBounds) l1.length 0 (l1 ++ l2).length (by omega) (by simp) (by
        intro pos _ hpos
        have e : (l1 ++ l2)[pos]? = some (l1 ++ l2)[pos] := List.getElem?_eq_getElem hpos
        simp only [e]
        by_cases hp : pos < l1.length
        · have hm : (l1 ++ l2)[pos] ∈ l1 := by rw [List.getElem_append_left hp]; simp
          rw [hK _ _ (hk1 _ hm) hk]
          rw [decide_eq_true (h1 _ hm), decide_eq_true hp]
        · have hm : (l1 ++ l2)[pos] ∈ l2 := by rw [List.getElem_append_right (by omega)]; simp
          rw [hK _ _ (hk2 _ hm) hk]
          rw [decide_eq_false (h2 _ hm), decide_eq_false hp])
    refine ⟨c, hc1, fun _ => ?_, fun hc => by simp [hc] at h⟩
    have := hc2 (by omega)
    simpa using this

theorem binary_split {n : Nat} (hK : LtClass n K cd) (l1 l2 : List Val) (k : Val) (hk : K k)
    (hk1 : ∀ x ∈ l1, K x) (hk2 : ∀ x ∈ l2, K x)
    (h1 : ∀ x ∈ l1, cd x < cd k) (h2 : ∀ x ∈ l2, ¬ cd x < cd k) :
    binary n (l1 ++ l2) k = .ok l1.length := by
  obtain ⟨c, h, _⟩ := binaryCount_split hK l1 l2 k hk hk1 hk2 h1 h2
  simp [binary, h]

/-- A sorted list splits at any probe. -/
theorem sorted_split {α} (f : α → List Int) (l : List α) (c : List Int)
    (hs : l.Pairwise (fun x y => f x ≤ f y)) :
    ∃ l1 l2, l = l1 ++ l2 ∧ (∀ x ∈ l1, f x < c) ∧ (∀ x ∈ l2, ¬ f x < c) := by
  induction l with
  | nil => exact ⟨[], [], by simp⟩
  | cons x l ih =>
    rw [List.pairwise_cons] at hs
    by_cases hx : f x < c
    · obtain ⟨l1, l2, rfl, h1, h2⟩ := ih hs.2
      exact ⟨x :: l1, l2, rfl, by simpa using ⟨hx, h1⟩, h2⟩
    · refine ⟨[], x :: l, rfl, by simp, ?_⟩
      intro y hy
      rcases List.mem_cons.1 hy with rfl | hy
      · exact hx
      · exact fun h => hx (lt_of_le_of_lt (hs.1 y hy) h)

/-! ## sort -/

theorem sortLoop_spec {n : Nat} (hK : LtClass n K cd) (xs r : List Val) (hx : ∀ x ∈ xs, K x) (hr : ∀ x ∈ r, K x)
    (hs : r.Pairwise (fun x y => cd x ≤ cd y)) :
    ∃ r', sortLoop n r xs = .ok r' ∧ r'.Perm (r ++ xs) ∧
      r'.Pairwise (fun x y => cd x ≤ cd y) := by
  induction xs generalizing r with
  | nil => exact ⟨r, rfl, by simp, hs⟩
  | cons x xs ih =>
    have hxk := hx x (by simp)
    obtain ⟨l1, l2, rfl, h1, h2⟩ := sorted_split cd r (cd x) hs
    have hb := binary_split hK l1 l2 x hxk (fun y hy => hr y (by simp [hy]))
      (fun y hy => hr y (by simp [hy])) h1 h2
    have hi : insertVar (l1 ++ l2) x l1.length = .ok (l1 ++ x :: l2) := by
      simp [insertVar]
    rw [List.pairwise_append] at hs
    obtain ⟨r', e1, e2, e3⟩ := ih (l1 ++ x :: l2) (fun y hy => hx y (by simp [hy]))
      (by
        intro y hy
        simp only [List.mem_append, List.mem_cons] at hy
        rcases hy with hy | rfl | hy
        · exact hr y (by simp [hy])
        · exact hxk
        · exact hr y (by simp [hy]))
      (by
        rw [List.pairwise_append]
        refine ⟨hs.1, ?_, ?_⟩
        · rw [List.pairwise_cons]
          exact ⟨fun y hy => not_lt.1 (h2 y hy), hs.2.1⟩
        · intro a ha b hb
          rcases List.mem_cons.1 hb with rfl | hb
          · exact le_of_lt (h1 a ha)
          · exact hs.2.2 a ha b hb)
    refine ⟨r', by simp [sortLoop, hb, hi, e1], e2.trans ?_, e3⟩
    have := (List.perm_middle (a := x) (l₁ := l1) (l₂ := l2)).append_right xs
    refine this.trans ?_
    simp only [List.cons_append]
    exact (List.perm_middle (a := x) (l₁ := l1 ++ l2) (l₂ := xs)).symm

/-! ## maps -/

/-- The invariant of maps: all keys are keys, in strictly ascending order. -/
structure WF (K : Val → Prop) (cd : Val → List Int) (ps : List (Val × Val)) : Prop where
  keys : ∀ p ∈ ps, K p.1
  sorted : ps.Pairwise (fun p q => cd p.1 < cd q.1)

theorem WF.nil : WF K cd [] := ⟨by simp, by simp⟩

/-- What a map binds a key to. -/
def get (cd : Val → List Int) (ps : List (Val × Val)) (c : List Int) : Option Val :=
  (ps.find? (fun p => decide (cd p.1 = c))).map Prod.snd

theorem WF.split {ps} (h : WF K cd ps) (c : List Int) :
    ∃ p1 p2, ps = p1 ++ p2 ∧ (∀ p ∈ p1, cd p.1 < c) ∧ (∀ p ∈ p2, ¬ cd p.1 < c) :=
  sorted_split (fun p => cd p.1) ps c (h.sorted.imp fun h => le_of_lt h)

theorem WF.tail_gt {p1 p2 : List (Val × Val)} {q} (h : WF K cd (p1 ++ q :: p2)) :
    ∀ p ∈ p2, cd q.1 < cd p.1 := by
  have := (List.pairwise_append.1 h.sorted).2.1
  exact (List.pairwise_cons.1 this).1

theorem binary_map {n : Nat} (hK : KeyClass n K cd) (p1 p2 : List (Val × Val)) (k : Val) (hk : K k)
    (h : WF K cd (p1 ++ p2)) (h1 : ∀ p ∈ p1, cd p.1 < cd k) (h2 : ∀ p ∈ p2, ¬ cd p.1 < cd k) :
    binary n ((p1 ++ p2).map Prod.fst) k = .ok p1.length := by
  rw [List.map_append]
  have := binary_split hK.lt_ok (p1.map Prod.fst) (p2.map Prod.fst) k hk
    (by simp only [List.mem_map]; rintro x ⟨p, hp, rfl⟩; exact h.keys p (by simp [hp]))
    (by simp only [List.mem_map]; rintro x ⟨p, hp, rfl⟩; exact h.keys p (by simp [hp]))
    (by simp only [List.mem_map]; rintro x ⟨p, hp, rfl⟩; exact h1 p hp)
    (by simp only [List.mem_map]; rintro x ⟨p, hp, rfl⟩; exact h2 p hp)
  simpa using this

/-- `m[k]`: either the key is there, or it is inserted between the smaller and the larger keys. -/
theorem mapRef_spec {n : Nat} (hK : KeyClass n K cd) (ps : List (Val × Val)) (k : Val) (hk : K k) (h : WF K cd ps) :
    (∃ p1 q p2, ps = p1 ++ q :: p2 ∧ cd q.1 = cd k ∧
      mapRef n ps k = .ok (ps, some p1.length)) ∨
    (∃ p1 p2, ps = p1 ++ p2 ∧ (∀ p ∈ ps, cd p.1 ≠ cd k) ∧ WF K cd (p1 ++ (k, Val.nil) :: p2) ∧
      mapRef n ps k = .ok (p1 ++ (k, Val.nil) :: p2, some p1.length)) := by
  obtain ⟨p1, p2, rfl, h1, h2⟩ := h.split (cd k)
  have hb := binary_map hK p1 p2 k hk h h1 h2
  have hwf : (∀ p ∈ p2, cd k < cd p.1) → WF K cd (p1 ++ (k, Val.nil) :: p2) := by
    intro h3
    refine ⟨?_, ?_⟩
    · intro p hp
      simp only [List.mem_append, List.mem_cons] at hp
      rcases hp with hp | rfl | hp
      · exact h.keys p (by simp [hp])
      · exact hk
      · exact h.keys p (by simp [hp])
    · have hs := List.pairwise_append.1 h.sorted
      rw [List.pairwise_append]
      refine ⟨hs.1, List.pairwise_cons.2 ⟨h3, hs.2.1⟩, ?_⟩
      intro a ha b hb
      rcases List.mem_cons.1 hb with rfl | hb
      · exact h1 a ha
      · exact hs.2.2 a ha b hb
  have hi : insertPair (p1 ++ p2) k p1.length = .ok (p1 ++ (k, Val.nil) :: p2) := by
    simp [insertPair]
  cases p2 with
  | nil =>
    right
    refine ⟨p1, [], rfl, ?_, hwf (by simp), ?_⟩
    · intro p hp; simp only [List.append_nil] at hp; exact ne_of_lt (h1 p hp)
    · unfold mapRef
      rw [if_neg (by simp [hK.defined _ hk]), hb]
      simp only [Outcome.bind_ok]
      rw [List.getElem?_eq_none (by simp)]
      simp only [hi, Outcome.bind_ok]
  | cons q p2 =>
    have hq : (p1 ++ q :: p2)[p1.length]? = some q := by simp
    have hqk : K q.1 := h.keys q (by simp)
    by_cases he : cd q.1 = cd k
    · left
      refine ⟨p1, q, p2, rfl, he, ?_⟩
      unfold mapRef
      rw [if_neg (by simp [hK.defined _ hk]), hb]
      simp only [Outcome.bind_ok]
      rw [hq]
      simp [hK.neq_ok _ _ hqk hk, he]
    · right
      have hlt : cd k < cd q.1 := lt_of_le_of_ne (not_lt.1 (h2 q (by simp))) (Ne.symm he)
      refine ⟨p1, q :: p2, rfl, ?_, hwf ?_, ?_⟩
      · intro p hp
        rcases List.mem_append.1 hp with hp | hp
        · exact ne_of_lt (h1 p hp)
        · rcases List.mem_cons.1 hp with rfl | hp
          · exact he
          · exact ne_of_gt (lt_trans hlt (h.tail_gt p hp))
      · intro p hp
        rcases List.mem_cons.1 hp with rfl | hp
        · exact hlt
        · exact lt_trans hlt (h.tail_gt p hp)
      · unfold mapRef
        rw [if_neg (by simp [hK.defined _ hk]), hb]
        simp only [Outcome.bind_ok]
        rw [hq]
        simp [hK.neq_ok _ _ hqk hk, he, hi]

theorem get_none {ps : List (Val × Val)} {c} (h : ∀ p ∈ ps, cd p.1 ≠ c) : get cd ps c = none := by
  unfold get
  rw [List.find?_eq_none.2 (by simpa using h)]
  rfl

theorem get_append_of_ne {p1 p2 : List (Val × Val)} {c} (h : ∀ p ∈ p1, cd p.1 ≠ c) :
    get cd (p1 ++ p2) c = get cd p2 c := by
  unfold get
  rw [List.find?_append, List.find?_eq_none.2 (by simpa using h)]
  rfl

theorem get_cons_eq {q : Val × Val} {p2} {c} (h : cd q.1 = c) : get cd (q :: p2) c = some q.2 := by
  simp [get, h]

theorem get_cons_ne {q : Val × Val} {p2} {c} (h : cd q.1 ≠ c) : get cd (q :: p2) c = get cd p2 c := by
  simp [get, h]

theorem WF.ne_left {p1 p2 : List (Val × Val)} {q} (h : WF K cd (p1 ++ q :: p2)) :
    ∀ p ∈ p1, cd p.1 ≠ cd q.1 :=
  fun p hp => ne_of_lt ((List.pairwise_append.1 h.sorted).2.2 p hp q (by simp))

theorem get_middle {p1 p2 : List (Val × Val)} {q} (h : WF K cd (p1 ++ q :: p2)) :
    get cd (p1 ++ q :: p2) (cd q.1) = some q.2 := by
  rw [get_append_of_ne h.ne_left, get_cons_eq rfl]

theorem get_middle_ne {p1 p2 : List (Val × Val)} {q} {c} (h : cd q.1 ≠ c) :
    get cd (p1 ++ q :: p2) c = get cd (p1 ++ p2) c := by
  unfold get
  rw [List.find?_append, List.find?_append, List.find?_cons_of_neg (by simpa using h)]

theorem mapAt_spec {n : Nat} (hK : KeyClass n K cd) (ps : List (Val × Val)) (k : Val) (hk : K k) (h : WF K cd ps) :
    mapAt n ps k = .ok (match get cd ps (cd k) with | some v => v | none => .nil) := by
  obtain ⟨p1, p2, rfl, h1, h2⟩ := h.split (cd k)
  have hb := binary_map hK p1 p2 k hk h h1 h2
  unfold mapAt
  rw [hb, Outcome.bind_ok]
  rw [get_append_of_ne (fun p hp => ne_of_lt (h1 p hp))]
  cases p2 with
  | nil => rw [List.getElem?_eq_none (by simp)]; rfl
  | cons q p2 =>
    have hq : (p1 ++ q :: p2)[p1.length]? = some q := by simp
    have hqk : K q.1 := h.keys q (by simp)
    rw [hq]
    simp only [hK.neq_ok _ _ hqk hk, Outcome.bind_ok]
    by_cases he : cd q.1 = cd k
    · rw [get_cons_eq he]; simp [he]
    · rw [get_cons_ne he]
      have hlt : cd k < cd q.1 := lt_of_le_of_ne (not_lt.1 (h2 q (by simp))) (Ne.symm he)
      rw [get_none (fun p hp => ne_of_gt (lt_trans hlt (h.tail_gt p hp)))]
      simp [he]

theorem WF.replace {p1 p2 : List (Val × Val)} {q : Val × Val} {v : Val} (h : WF K cd (p1 ++ q :: p2)) :
    WF K cd (p1 ++ (q.1, v) :: p2) := by
  refine ⟨?_, ?_⟩
  · intro p hp
    simp only [List.mem_append, List.mem_cons] at hp
    rcases hp with hp | rfl | hp
    · exact h.keys p (by simp [hp])
    · exact h.keys q (by simp)
    · exact h.keys p (by simp [hp])
  · have hs := List.pairwise_append.1 h.sorted
    have ht := List.pairwise_cons.1 hs.2.1
    rw [List.pairwise_append]
    refine ⟨hs.1, List.pairwise_cons.2 ⟨ht.1, ht.2⟩, ?_⟩
    intro a ha b hb
    rcases List.mem_cons.1 hb with rfl | hb
    · exact hs.2.2 a ha q (by simp)
    · exact hs.2.2 a ha b (by simp [hb])

/-- `m[k] = v` binds `k` to `v` and leaves all else alone. -/
theorem mapSet_spec {n : Nat} (hK : KeyClass n K cd) (ps : List (Val × Val)) (k v : Val) (hk : K k) (h : WF K cd ps) :
    ∃ ps', mapSet n ps k v = .ok ps' ∧ WF K cd ps' ∧
      (∀ c, get cd ps' c = if c = cd k then some v else get cd ps c) ∧
      (ps'.map (fun p => cd p.1) = ps.map (fun p => cd p.1) ∧ (∃ p ∈ ps, cd p.1 = cd k) ∨
       ps'.length = ps.length + 1 ∧ ∀ p ∈ ps, cd p.1 ≠ cd k) := by
  unfold mapSet
  rcases mapRef_spec hK ps k hk h with ⟨p1, q, p2, rfl, he, hr⟩ | ⟨p1, p2, rfl, hne, hwf, hr⟩
  · refine ⟨p1 ++ (q.1, v) :: p2, ?_, h.replace, ?_, ?_⟩
    · rw [hr]; simp
    · intro c
      by_cases hc : c = cd k
      · rw [if_pos hc, hc, ← he]
        exact get_middle (q := (q.1, v)) h.replace
      · rw [if_neg hc]
        have : cd q.1 ≠ c := by rw [he]; exact Ne.symm hc
        rw [get_middle_ne (q := (q.1, v)) this, get_middle_ne this]
    · left; exact ⟨by simp, q, by simp, he⟩
  · refine ⟨p1 ++ (k, v) :: p2, ?_, hwf.replace, ?_, ?_⟩
    · rw [hr]; simp
    · intro c
      by_cases hc : c = cd k
      · rw [if_pos hc, hc]
        exact get_middle (q := (k, v)) hwf.replace
      · rw [if_neg hc, get_middle_ne (q := (k, v)) (Ne.symm hc)]
    · right; exact ⟨by simp; omega, hne⟩

end Libube.Order

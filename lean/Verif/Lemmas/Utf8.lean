import Verif.Model.Utf8
import Verif.Spec.Utf8
import Mathlib.Tactic.Linarith

/-! # Lemmas about UTF-8 length -/

namespace Libube.Utf8

open Libube

set_option maxRecDepth 4000

/-- lead byte classes by masks and by ranges agree (all 256 bytes) -/
theorem mask_ascii (b : UInt8) : b &&& 0x80 = 0x00 ↔ b.toNat ≤ 0x7F := by
  have h : ∀ n : Fin 256, ((UInt8.ofNat n) &&& 0x80 = 0x00 ↔ (UInt8.ofNat n).toNat ≤ 0x7F) := by decide
  have := h ⟨b.toNat, b.toNat_lt⟩
  simpa using this

theorem mask_two (b : UInt8) : b &&& 0xE0 = 0xC0 ↔ 0xC0 ≤ b.toNat ∧ b.toNat ≤ 0xDF := by
  have h : ∀ n : Fin 256, ((UInt8.ofNat n) &&& 0xE0 = 0xC0 ↔
    0xC0 ≤ (UInt8.ofNat n).toNat ∧ (UInt8.ofNat n).toNat ≤ 0xDF) := by decide
  have := h ⟨b.toNat, b.toNat_lt⟩
  simpa using this

theorem mask_three (b : UInt8) : b &&& 0xF0 = 0xE0 ↔ 0xE0 ≤ b.toNat ∧ b.toNat ≤ 0xEF := by
  have h : ∀ n : Fin 256, ((UInt8.ofNat n) &&& 0xF0 = 0xE0 ↔
    0xE0 ≤ (UInt8.ofNat n).toNat ∧ (UInt8.ofNat n).toNat ≤ 0xEF) := by decide
  have := h ⟨b.toNat, b.toNat_lt⟩
  simpa using this

theorem mask_four (b : UInt8) : b &&& 0xF8 = 0xF0 ↔ 0xF0 ≤ b.toNat ∧ b.toNat ≤ 0xF7 := by
  have h : ∀ n : Fin 256, ((UInt8.ofNat n) &&& 0xF8 = 0xF0 ↔
    0xF0 ≤ (UInt8.ofNat n).toNat ∧ (UInt8.ofNat n).toNat ≤ 0xF7) := by decide
  have := h ⟨b.toNat, b.toNat_lt⟩
  simpa using this

theorem mask_cont (b : UInt8) : b &&& 0xC0 = 0x80 ↔ IsCont b := by
  have h : ∀ n : Fin 256, ((UInt8.ofNat n) &&& 0xC0 = 0x80 ↔
    0x80 ≤ (UInt8.ofNat n).toNat ∧ (UInt8.ofNat n).toNat ≤ 0xBF) := by decide
  have := h ⟨b.toNat, b.toNat_lt⟩
  simpa [IsCont] using this

theorem not_cont_zero : ¬ IsCont 0 := by unfold IsCont; decide

theorem rd_append (pre : List UInt8) (t : List UInt8) (i : Nat) :
    rd (pre ++ t) (pre.length + i) = rd t i := by
  unfold rd
  rw [List.getElem?_append_right (by omega)]
  simp

theorem contLoop_append (pre t : List UInt8) (i n : Nat) :
    contLoop (pre ++ t) pre.length i n = contLoop t 0 i n := by
  induction n generalizing i with
  | zero => rfl
  | succ n ih => simp only [contLoop, rd_append, ih, Nat.zero_add]

theorem utf8len_append (pre t : List UInt8) : utf8len (pre ++ t) pre.length = utf8len t 0 := by
  have h := rd_append pre t 0
  rw [Nat.add_zero] at h
  simp only [utf8len, h, contLoop_append]

/-- number of bytes announced by a lead byte -/
def leadLen (a : UInt8) : Nat :=
  if a.toNat ≤ 0x7F then 1
  else if 0xC0 ≤ a.toNat ∧ a.toNat ≤ 0xDF then 2
  else if 0xE0 ≤ a.toNat ∧ a.toNat ≤ 0xEF then 3
  else if 0xF0 ≤ a.toNat ∧ a.toNat ≤ 0xF7 then 4
  else 0

theorem isGroup_iff (g : List UInt8) :
    IsGroup g ↔ ∃ a cs, g = a :: cs ∧ leadLen a = cs.length + 1 ∧ ∀ c ∈ cs, IsCont c := by
  constructor
  · intro h
    cases h with
    | one a h => exact ⟨a, [], rfl, by simp [leadLen, h], by simp⟩
    | two a b h1 h2 hb =>
      refine ⟨a, [b], rfl, ?_, by simpa using hb⟩
      unfold leadLen; rw [if_neg (by omega), if_pos ⟨h1, h2⟩]; rfl
    | three a b c h1 h2 hb hc =>
      refine ⟨a, [b, c], rfl, ?_, by simp [hb, hc]⟩
      unfold leadLen; rw [if_neg (by omega), if_neg (by omega), if_pos ⟨h1, h2⟩]; rfl
    | four a b c d h1 h2 hb hc hd =>
      refine ⟨a, [b, c, d], rfl, ?_, by simp [hb, hc, hd]⟩
      unfold leadLen
      rw [if_neg (by omega), if_neg (by omega), if_neg (by omega), if_pos ⟨h1, h2⟩]; rfl
  · rintro ⟨a, cs, rfl, hl, hc⟩
    unfold leadLen at hl
    split at hl
    · match cs with
      | [] => exact .one a (by assumption)
    · split at hl
      · rename_i h
        match cs with
        | [b] => exact .two a b h.1 h.2 (hc b (by simp))
      · split at hl
        · rename_i h
          match cs with
          | [b, c] => exact .three a b c h.1 h.2 (hc b (by simp)) (hc c (by simp))
        · split at hl
          · rename_i h
            match cs with
            | [b, c, d] =>
              exact .four a b c d h.1 h.2 (hc b (by simp)) (hc c (by simp)) (hc d (by simp))
          · omega

open Classical in
/-- the continuation loop on a NUL-terminated remainder stops at the NUL at the latest -/
theorem contLoop_spec (s : List UInt8) (i n : Nat) (hi : i ≤ s.length) :
    contLoop (s ++ [0]) 0 i n =
      .ok (decide (i + n ≤ s.length ∧ ∀ c ∈ (s.drop i).take n, IsCont c)) := by
  induction n generalizing i with
  | zero => simp [contLoop, hi]
  | succ n ih =>
    rw [contLoop, Nat.zero_add]
    rcases Nat.lt_or_ge i s.length with hlt | hge
    · have hr : rd (s ++ [0]) i = .ok s[i] := by
        unfold rd; rw [List.getElem?_append_left hlt]; simp [hlt]
      rw [hr, Outcome.bind_ok]
      have hd : s.drop i = s[i] :: s.drop (i + 1) := List.drop_eq_getElem_cons hlt
      by_cases hb : IsCont s[i]
      · rw [if_neg (by simp [(mask_cont s[i]).2 hb]), ih (i + 1) hlt, hd]
        congr 1
        apply decide_eq_decide.2
        rw [List.take_succ_cons]
        constructor
        · rintro ⟨h1, h2⟩
          refine ⟨by omega, ?_⟩
          intro c hc
          rcases List.mem_cons.1 hc with rfl | hc
          · exact hb
          · exact h2 c hc
        · rintro ⟨h1, h2⟩
          exact ⟨by omega, fun c hc => h2 c (List.mem_cons_of_mem _ hc)⟩
      · rw [if_pos ((not_congr (mask_cont s[i])).2 hb)]
        congr 1
        symm
        apply decide_eq_false
        rintro ⟨_, h2⟩
        rw [hd, List.take_succ_cons] at h2
        exact hb (h2 _ (by simp))
    · have : i = s.length := by omega
      have hr : rd (s ++ [0]) i = .ok 0 := by
        unfold rd; rw [List.getElem?_append_right (by omega)]; simp [this]
      rw [hr, Outcome.bind_ok, if_pos (by decide)]
      congr 1
      symm
      apply decide_eq_false
      omega

/-- the lead byte masks compute `leadLen` -/
theorem lead_eq (b : UInt8) (h : ¬ b.toNat ≤ 0x7F) :
    (if b &&& 0xE0 = 0xC0 then 2
      else if b &&& 0xF0 = 0xE0 then 3
      else if b &&& 0xF8 = 0xF0 then 4
      else 0) = leadLen b := by
  simp only [mask_two, mask_three, mask_four, leadLen, if_neg h]

open Classical in
/-- what the code decides at the head of a non-empty NUL-terminated remainder -/
theorem utf8len_head (s : List UInt8) (hs : s ≠ []) :
    (∃ g r, s = g ++ r ∧ IsGroup g ∧ utf8len (s ++ [0]) 0 = .ok g.length) ∨
    ((∀ g r, s = g ++ r → ¬ IsGroup g) ∧ utf8len (s ++ [0]) 0 = .ok 0) := by
  obtain ⟨a, s, rfl⟩ := List.exists_cons_of_ne_nil hs
  have hrd : rd (a :: s ++ [0]) 0 = .ok a := rfl
  by_cases h1 : a.toNat ≤ 0x7F
  · left
    refine ⟨[a], s, rfl, .one a h1, ?_⟩
    rw [utf8len, hrd, Outcome.bind_ok, if_pos ((mask_ascii a).2 h1)]; rfl
  · have m1 := (not_congr (mask_ascii a)).2 h1
    have hu : utf8len (a :: s ++ [0]) 0 =
        if leadLen a = 0 then .ok 0 else
          if 1 + (leadLen a - 1) ≤ (a :: s).length ∧
            (∀ c ∈ ((a :: s).drop 1).take (leadLen a - 1), IsCont c) then .ok (leadLen a)
          else .ok 0 := by
      rw [utf8len, hrd, Outcome.bind_ok, if_neg m1]
      simp only [lead_eq a h1]
      split
      · rfl
      · rw [contLoop_spec (a :: s) 1 _ (by simp), Outcome.bind_ok]
        simp only [decide_eq_true_eq]
        split <;> rfl
    by_cases h0 : leadLen a = 0
    · right
      refine ⟨?_, by rw [hu, if_pos h0]⟩
      intro g r h hg
      obtain ⟨a', cs, rfl, hl, _⟩ := (isGroup_iff g).1 hg
      simp at h
      obtain ⟨rfl, _⟩ := h
      omega
    · rw [hu, if_neg h0]
      split
      · rename_i hc
        left
        simp only [List.drop_succ_cons, List.drop_zero, List.length_cons] at hc
        refine ⟨a :: s.take (leadLen a - 1), s.drop (leadLen a - 1), by simp, ?_, ?_⟩
        · rw [isGroup_iff]
          refine ⟨a, _, rfl, ?_, hc.2⟩
          rw [List.length_take]; omega
        · rw [List.length_cons, List.length_take]; congr 1; omega
      · rename_i hc
        right
        refine ⟨?_, rfl⟩
        intro g r h hg
        obtain ⟨a', cs, rfl, hl, hcs⟩ := (isGroup_iff g).1 hg
        simp at h
        obtain ⟨rfl, rfl⟩ := h
        apply hc
        refine ⟨by simp; omega, ?_⟩
        have : leadLen a - 1 = cs.length := by omega
        simpa [this] using hcs

/-- groups are prefix free: a string starts with at most one group -/
theorem group_prefix_unique {g g' r r' : List UInt8} (hg : IsGroup g) (hg' : IsGroup g')
    (h : g ++ r = g' ++ r') : g = g' ∧ r = r' := by
  obtain ⟨a, cs, rfl, hl, _⟩ := (isGroup_iff g).1 hg
  obtain ⟨a', cs', rfl, hl', _⟩ := (isGroup_iff g').1 hg'
  simp at h
  obtain ⟨rfl, h⟩ := h
  have hlen : cs.length = cs'.length := by omega
  obtain ⟨h1, h2⟩ := List.append_inj h hlen
  exact ⟨by rw [h1], h2⟩

theorem isGroup_ne_nil {g : List UInt8} (h : IsGroup g) : g ≠ [] := by
  cases h <;> simp

theorem lenLoop_spec (s pre : List UInt8) (code : Nat) :
    (∃ n, Grouped s n ∧
      lenLoop ((pre ++ s) ++ [0]) (pre ++ s).length pre.length code = .ok ((code + n : Nat) : Int)) ∨
    ((¬ ∃ n, Grouped s n) ∧
      lenLoop ((pre ++ s) ++ [0]) (pre ++ s).length pre.length code = .ok (-1)) := by
  induction h : s.length using Nat.strong_induction_on generalizing s pre code with
  | _ k ih =>
    by_cases hs : s = []
    · subst hs
      left
      refine ⟨0, .nil, ?_⟩
      rw [lenLoop]; simp
    · have hlt : pre.length < (pre ++ s).length := by
        rw [List.length_append]
        have := List.length_pos_iff.2 hs
        omega
      rw [lenLoop, dif_pos hlt, List.append_assoc, utf8len_append]
      rcases utf8len_head s hs with ⟨g, r, rfl, hg, hu⟩ | ⟨hno, hu⟩
      · rw [hu]
        have hgl : 0 < g.length := List.length_pos_iff.2 (isGroup_ne_nil hg)
        obtain ⟨l, hl⟩ : ∃ l, g.length = l + 1 := ⟨g.length - 1, by omega⟩
        have hlen : pre.length + (l + 1) = (pre ++ g).length := by simp; omega
        rw [hl]; simp only
        have hmem : pre ++ (g ++ r ++ [0]) = (pre ++ g) ++ r ++ [0] := by simp
        have hsz : pre ++ (g ++ r) = (pre ++ g) ++ r := by simp
        rw [hlen, hmem, hsz]
        rcases ih r.length (by rw [← h]; simp; omega) r (pre ++ g) (code + 1) rfl with
          ⟨n, hn, he⟩ | ⟨hn, he⟩
        · left
          refine ⟨n + 1, .cons g r n hg hn, ?_⟩
          rw [he]; congr 2; omega
        · right
          refine ⟨?_, he⟩
          rintro ⟨n, hgr⟩
          generalize hw : g ++ r = w at hgr
          cases hgr with
          | nil => simp at hw; exact isGroup_ne_nil hg hw.1
          | cons g' r' n hg' hr' =>
            obtain ⟨rfl, rfl⟩ := group_prefix_unique hg hg' hw
            exact hn ⟨_, hr'⟩
      · right
        refine ⟨?_, by rw [hu]⟩
        rintro ⟨n, hgr⟩
        cases hgr with
        | nil => exact hs rfl
        | cons g' r' n hg' hr' => exact hno _ _ rfl hg'

theorem Grouped.unique {s : List UInt8} {n m : Nat} (h : Grouped s n) (h' : Grouped s m) :
    n = m := by
  induction h generalizing m with
  | nil =>
    generalize hw : ([] : List UInt8) = w at h'
    cases h' with
    | nil => rfl
    | cons g r k hg _ => simp at hw; exact absurd hw.1 (isGroup_ne_nil hg)
  | cons g s n hg _ ih =>
    generalize hw : g ++ s = w at h'
    cases h' with
    | nil => simp at hw; exact absurd hw.1 (isGroup_ne_nil hg)
    | cons g' r k hg' hr =>
      obtain ⟨rfl, rfl⟩ := group_prefix_unique hg hg' hw
      rw [ih hr]

/-- the standard encoding of a character is one group -/
theorem encode_isGroup (c : Char) : IsGroup (String.utf8EncodeChar c) := by
  have hc : ∀ v : Nat, IsCont (UInt8.ofNat (v % 0x40 + 0x80)) := by
    intro v
    have : v % 0x40 < 0x40 := Nat.mod_lt _ (by decide)
    unfold IsCont
    rw [UInt8.toNat_ofNat']
    omega
  unfold String.utf8EncodeChar
  simp only
  split
  · exact .one _ (by rw [UInt8.toNat_ofNat']; omega)
  · split
    · refine .two _ _ ?_ ?_ (hc _) <;> rw [UInt8.toNat_ofNat'] <;> omega
    · split
      · refine .three _ _ _ ?_ ?_ (hc _) (hc _) <;> rw [UInt8.toNat_ofNat'] <;> omega
      · refine .four _ _ _ _ ?_ ?_ (hc _) (hc _) (hc _) <;> rw [UInt8.toNat_ofNat'] <;> omega

end Libube.Utf8

import Verif.Model.StringFns
import Verif.Spec.StringFns
import Mathlib.Data.List.Basic
import Mathlib.Data.List.Infix
import Mathlib.Data.List.TakeWhile
import Mathlib.Tactic.Linarith

namespace Libube.StringFns

open Libube Libube.CString Libube.StringSpec

theorem cstr_of_no_nul (s : Bytes) (h : (0 : UInt8) ∉ s) : cstr s = s := by
  unfold cstr
  rw [List.takeWhile_eq_self_iff]
  intro x hx
  simp only [decide_eq_true_eq]
  rintro rfl; exact h hx

theorem cstr_no_nul (s : Bytes) : (0 : UInt8) ∉ cstr s := by
  intro h
  have := List.mem_takeWhile_imp h
  simp at this

/-- `strstr` finds the first occurrence -/
theorem strstr_some {s sep : Bytes} {n : Nat} (h : strstr s sep = some n) :
    FirstAt s sep (s.take n) (s.drop (n + sep.length)) ∧ n ≤ s.length := by
  induction s generalizing n with
  | nil =>
    unfold strstr at h
    split at h
    · rename_i hp
      simp at hp h
      subst hp; subst h
      exact ⟨⟨rfl, fun a b _ => by simp⟩, by simp⟩
    · simp at h
  | cons x t ih =>
    unfold strstr at h
    split at h
    · rename_i hp
      simp at h
      subst h
      have hp := List.isPrefixOf_iff_prefix.1 hp
      obtain ⟨r, hr⟩ := hp
      refine ⟨⟨?_, fun a b _ => by simp⟩, by simp⟩
      simp [← hr]
    · rename_i hp
      simp only [Option.map_eq_some_iff] at h
      obtain ⟨m, hm, rfl⟩ := h
      obtain ⟨⟨h1, h2⟩, hl⟩ := ih hm
      refine ⟨⟨?_, ?_⟩, by simp; exact hl⟩
      · have : m + 1 + sep.length = (m + sep.length) + 1 := by omega
        rw [this, List.take_succ_cons, List.drop_succ_cons]
        simpa using h1
      · intro a b hab
        cases a with
        | nil =>
          exfalso; apply hp
          rw [List.isPrefixOf_iff_prefix]
          exact ⟨b, by simpa using hab.symm⟩
        | cons y a =>
          simp only [List.cons_append, List.cons.injEq] at hab
          have := h2 a b (by simpa using hab.2)
          simp only [List.take_succ_cons, List.length_cons]; omega

theorem strstr_none {s sep : Bytes} (h : strstr s sep = none) : ¬ Contains s sep := by
  induction s with
  | nil =>
    rintro ⟨a, b, hab⟩
    unfold strstr at h
    split at h
    · simp at h
    · rename_i hp
      simp at hab
      apply hp; simp [hab.2.1]
  | cons x t ih =>
    unfold strstr at h
    split at h
    · simp at h
    · rename_i hp
      simp only [Option.map_eq_none_iff] at h
      rintro ⟨a, b, hab⟩
      cases a with
      | nil =>
        apply hp
        rw [List.isPrefixOf_iff_prefix]
        exact ⟨b, by simpa using hab.symm⟩
      | cons y a =>
        simp only [List.cons_append, List.cons.injEq] at hab
        exact ih h ⟨a, b, by simpa using hab.2⟩

/-- number of cuts allowed by `iMax` when `k` pieces have been made already -/
def cutsLeft (iMax : Int) (k : Nat) : Option Nat :=
  if iMax = 0 then none else some (max (iMax - 1 - k) 1).toNat

theorem splitLoop_spec (sep : Bytes) (hsep : sep ≠ []) (fuel : Nat) (s : Bytes) (iMax : Int)
    (r : List Bytes) (hf : s.length < fuel) :
    ∃ src ps, splitLoop fuel s sep iMax r = .ok (src, r ++ ps) ∧
      Splits sep (cutsLeft iMax r.length) s (ps ++ [src]) := by
  induction fuel generalizing s r with
  | zero => omega
  | succ fuel ih =>
    rw [splitLoop]
    cases h : strstr s sep with
    | none => exact ⟨s, [], by simp, .whole _ _ (strstr_none h)⟩
    | some n =>
      obtain ⟨hfirst, hn⟩ := strstr_some h
      have hl : 0 < sep.length := List.length_pos_iff.2 hsep
      have hne : cutsLeft iMax r.length ≠ some 0 := by
        unfold cutsLeft; split
        · simp
        · simp only [ne_eq, Option.some.injEq]; omega
      simp only
      split
      · rename_i hb
        refine ⟨_, [s.take n], rfl, ?_⟩
        refine .cut _ _ _ _ _ hne hfirst ?_
        have : (cutsLeft iMax r.length).map (· - 1) = some 0 := by
          unfold cutsLeft; rw [if_neg hb.1]
          have h2 := hb.2
          simp at h2 ⊢
          omega
        rw [this]; exact .limit _
      · rename_i hb
        have hlen : (s.drop (n + sep.length)).length < fuel := by
          have : s.length ≠ 0 := by
            intro h0
            have := congrArg List.length hfirst.1
            simp only [List.length_append] at this; omega
          simp; omega
        obtain ⟨src, ps, h1, h2⟩ := ih _ (r ++ [s.take n]) hlen
        refine ⟨src, s.take n :: ps, by rw [h1]; simp, ?_⟩
        refine .cut _ _ _ _ _ hne hfirst ?_
        have : (cutsLeft iMax r.length).map (· - 1) = cutsLeft iMax (r ++ [s.take n]).length := by
          unfold cutsLeft
          split
          · rfl
          · rename_i h0
            have hb' : ¬ ((r.length : Int) + 1 ≥ iMax - 1) := by
              intro hc; apply hb; refine ⟨h0, ?_⟩; simpa using hc
            simp only [Option.map_some, List.length_append, List.length_cons, List.length_nil]
            congr 1; omega
        rw [this]; exact h2

theorem _root_.Libube.StringSpec.Splits.ne_nil {sep cuts s ps} (h : Splits sep cuts s ps) : ps ≠ [] := by
  cases h <;> simp

theorem _root_.Libube.StringSpec.Splits.join {sep cuts s ps} (h : Splits sep cuts s ps) : joined sep ps = s := by
  induction h with
  | whole => rfl
  | limit => rfl
  | cut cuts s p rest ps _ hf hs ih =>
    obtain ⟨q, qs, rfl⟩ := List.exists_cons_of_ne_nil hs.ne_nil
    rw [joined, ih, ← hf.1]

theorem firstAt_not_contains {s sep p rest : List UInt8} (hsep : sep ≠ [])
    (h : FirstAt s sep p rest) : ¬ Contains p sep := by
  rintro ⟨a, b, rfl⟩
  have := h.2 a (b ++ sep ++ rest) (by rw [h.1]; simp)
  have hl : 0 < sep.length := List.length_pos_iff.2 hsep
  simp only [List.length_append] at this; omega

theorem _root_.Libube.StringSpec.Splits.no_sep {sep s ps} (hsep : sep ≠ []) (h : Splits sep none s ps) :
    ∀ p ∈ ps, ¬ Contains p sep := by
  generalize hc : (none : Option Nat) = cuts at h
  induction h with
  | whole cuts s hn => simpa using hn
  | limit => simp at hc
  | cut cuts s p rest ps _ hf hs ih =>
    subst hc
    intro q hq
    rcases List.mem_cons.1 hq with rfl | hq
    · exact firstAt_not_contains hsep hf
    · exact ih rfl q hq

theorem _root_.Libube.StringSpec.Splits.length_le {sep s ps} {n : Nat} (h : Splits sep (some n) s ps) :
    ps.length ≤ n + 1 := by
  generalize hc : some n = cuts at h
  induction h generalizing n with
  | whole => simp
  | limit => simp
  | cut cuts s p rest ps hne hf hs ih =>
    subst hc
    have := ih (n := n - 1) rfl
    have : n ≠ 0 := fun h => hne (by rw [h])
    simp; omega

theorem firstAt_unique {s sep p rest p' rest' : List UInt8}
    (h : FirstAt s sep p rest) (h' : FirstAt s sep p' rest') : p = p' ∧ rest = rest' := by
  have h1 := h.2 p' rest' h'.1
  have h2 := h'.2 p rest h.1
  have he : p ++ (sep ++ rest) = p' ++ (sep ++ rest') := by
    rw [← List.append_assoc, ← List.append_assoc, ← h.1, ← h'.1]
  obtain ⟨a, b⟩ := List.append_inj he (by omega)
  exact ⟨a, List.append_cancel_left b⟩

theorem contains_of_firstAt {s sep p rest : List UInt8} (h : FirstAt s sep p rest) :
    Contains s sep := ⟨p, rest, h.1⟩

theorem _root_.Libube.StringSpec.Splits.unique {sep cuts s ps qs} (h : Splits sep cuts s ps) (h' : Splits sep cuts s qs) :
    ps = qs := by
  induction h generalizing qs with
  | whole cuts s hn =>
    cases h' with
    | whole => rfl
    | limit => rfl
    | cut _ _ p rest qs _ hf => exact absurd (contains_of_firstAt hf) hn
  | limit s =>
    cases h' with
    | whole => rfl
    | limit => rfl
    | cut _ _ p rest qs hne => exact absurd rfl hne
  | cut cuts s p rest ps hne hf hs ih =>
    cases h' with
    | whole _ _ hn => exact absurd (contains_of_firstAt hf) hn
    | limit => exact absurd rfl hne
    | cut _ _ p' rest' qs _ hf' hs' =>
      obtain ⟨rfl, rfl⟩ := firstAt_unique hf hf'
      rw [ih hs']

/-- a limited split agrees with the unlimited one up to the last piece -/
theorem _root_.Libube.StringSpec.Splits.limited_prefix {sep s ps qs} {n : Nat} (h : Splits sep (some n) s ps)
    (h' : Splits sep none s qs) : ps.dropLast <+: qs := by
  generalize hc : some n = cuts at h
  induction h generalizing n qs with
  | whole => simp
  | limit => simp
  | cut cuts s p rest ps hne hf hs ih =>
    subst hc
    cases h' with
    | whole _ _ hn => exact absurd (contains_of_firstAt hf) hn
    | cut _ _ p' rest' qs _ hf' hs' =>
      obtain ⟨rfl, rfl⟩ := firstAt_unique hf hf'
      have := ih hs' (n := n - 1) rfl
      obtain ⟨q, t, rfl⟩ := List.exists_cons_of_ne_nil hs.ne_nil
      rw [List.dropLast_cons_cons]
      exact List.prefix_cons_inj p |>.2 this

theorem split_eq (s sep : Bytes) (fuel : Nat) (iMax : Int) (hs : (0 : UInt8) ∉ s)
    (hsep0 : (0 : UInt8) ∉ sep) (hsep : sep ≠ []) (hf : s.length < fuel) :
    ∃ ps, split fuel s sep iMax = .ok ps ∧
      Splits sep (if iMax = 0 then none else if iMax = 1 then some 0 else
        some (max (iMax - 1) 1).toNat) s ps := by
  unfold split
  rw [cstr_of_no_nul s hs, cstr_of_no_nul sep hsep0]
  by_cases h1 : iMax = 1
  · subst h1
    exact ⟨[s], by simp, .limit s⟩
  · obtain ⟨src, ps, h2, h3⟩ := splitLoop_spec sep hsep fuel s iMax [] hf
    refine ⟨ps ++ [src], by simp [h1, h2], ?_⟩
    rw [if_neg h1]
    simpa [cutsLeft] using h3

theorem joinLoop_succ (sep r : Bytes) (i : Nat) (xs : List Bytes) :
    joinLoop sep (i + 1) r xs = r ++ (xs.flatMap (fun x => sep ++ x)) := by
  induction xs generalizing r i with
  | nil => simp [joinLoop]
  | cons x xs ih => simp [joinLoop, ih]

theorem joined_cons (sep x : Bytes) (xs : List Bytes) :
    joined sep (x :: xs) = x ++ xs.flatMap (fun y => sep ++ y) := by
  induction xs generalizing x with
  | nil => simp [joined]
  | cons y ys ih => simp [joined, ih]

theorem join_eq_joined (xs : List Bytes) (sep : Bytes) : join xs sep = joined (cstr sep) xs := by
  cases xs with
  | nil => rfl
  | cons x xs => simp [join, joinLoop, joinLoop_succ, joined_cons]

/-! ### white space -/

theorem isspace_iff (b : UInt8) : isspace b = true ↔ IsSpace b := by
  unfold isspace IsSpace
  simp only [Bool.or_eq_true, decide_eq_true_eq]
  constructor
  · rintro (((((h | h) | h) | h) | h) | h) <;> subst h <;> decide
  · intro h
    have hb : b = UInt8.ofNat b.toNat := by simp
    have : b.toNat = 32 ∨ b.toNat = 9 ∨ b.toNat = 10 ∨ b.toNat = 11 ∨ b.toNat = 12 ∨ b.toNat = 13 := by
      omega
    rcases this with h | h | h | h | h | h <;> rw [h] at hb <;> subst hb <;> decide

theorem dropWhile_head {α} (f : α → Bool) (l : List α) (x : α) (h : (l.dropWhile f).head? = some x) :
    f x = false := by
  have := List.head?_dropWhile_not f l
  rw [h] at this
  simpa using this

theorem takeWhile_all {α} (f : α → Bool) (l : List α) : ∀ x ∈ l.takeWhile f, f x = true :=
  fun _ h => List.mem_takeWhile_imp h

theorem not_isspace_iff (b : UInt8) : isspace b = false ↔ ¬ IsSpace b := by
  rw [← isspace_iff]; simp

theorem _root_.Libube.StringSpec.WordsMax.space_append {lim : Option Nat} {p : List UInt8} {ws}
    (h : WordsMax lim p ws) (sp : List UInt8) (hs : ∀ b ∈ sp, IsSpace b) :
    WordsMax lim (sp ++ p) ws := by
  cases h with
  | none _ _ h =>
    exact .none _ _ (by
      intro b hb; rcases List.mem_append.1 hb with hb | hb
      · exact hs b hb
      · exact h b hb)
  | limit sp' rest b h hb' =>
    rw [← List.append_assoc]
    exact .limit _ _ _ (by
      intro b hb; rcases List.mem_append.1 hb with hb | hb
      · exact hs b hb
      · exact h b hb) hb'
  | word _ sp' w rest ws hl h h1 h2 h3 h4 =>
    have : sp ++ (sp' ++ w ++ rest) = (sp ++ sp') ++ w ++ rest := by simp
    rw [this]
    exact .word _ _ _ _ _ hl (by
      intro b hb; rcases List.mem_append.1 hb with hb | hb
      · exact hs b hb
      · exact h b hb) h1 h2 h3 h4

theorem wordsLoop_spec (p : Bytes) (iMax : Int) (r : List Bytes)
    (hp : ∀ b, p.head? = some b → ¬ IsSpace b) :
    ∃ ws, wordsLoop p iMax r = r ++ ws ∧ WordsMax (cutsLeft iMax r.length) p ws := by
  induction hn : p.length using Nat.strong_induction_on generalizing p r with
  | _ n ih =>
    rw [wordsLoop]
    split
    · rename_i h; subst h
      exact ⟨[], by simp, .none _ _ (by simp)⟩
    · rename_i hne
      simp only
      generalize hw : p.takeWhile (fun b => !isspace b) = w
      generalize hq : p.dropWhile (fun b => !isspace b) = q
      generalize hp' : q.dropWhile isspace = p'
      have hpq : p = w ++ q := by rw [← hw, ← hq, List.takeWhile_append_dropWhile]
      have hqsp : q = q.takeWhile isspace ++ p' := by rw [← hp', List.takeWhile_append_dropWhile]
      have hwne : w ≠ [] := by
        obtain ⟨a, t, rfl⟩ := List.exists_cons_of_ne_nil hne
        have := (not_isspace_iff a).2 (hp a rfl)
        rw [← hw, List.takeWhile_cons_of_pos (by simp [this])]; simp
      have hwl : w.length > 0 := List.length_pos_iff.2 hwne
      have hws : ∀ b ∈ w, ¬ IsSpace b := by
        intro b hb
        rw [← hw] at hb
        have := takeWhile_all _ _ b hb
        rw [← not_isspace_iff]; simpa using this
      have hqs : ∀ b, q.head? = some b → IsSpace b := by
        intro b hb
        rw [← hq] at hb
        have := dropWhile_head _ _ b hb
        rw [← isspace_iff]; simpa using this
      have hp's : ∀ b, p'.head? = some b → ¬ IsSpace b := by
        intro b hb
        rw [← hp'] at hb
        rw [← not_isspace_iff]; exact dropWhile_head _ _ b hb
      have hsp : ∀ b ∈ q.takeWhile isspace, IsSpace b := by
        intro b hb
        rw [← isspace_iff]; exact takeWhile_all _ _ b hb
      have hcl : cutsLeft iMax r.length ≠ some 0 := by
        unfold cutsLeft; split
        · simp
        · simp only [ne_eq, Option.some.injEq]; omega
      rw [if_pos hwl]
      split
      · rename_i hb
        refine ⟨[w, p'], by simp, ?_⟩
        have hc : (cutsLeft iMax r.length).map (· - 1) = some 0 := by
          unfold cutsLeft; rw [if_neg hb.1]
          have h2 := hb.2.1
          simp at h2 ⊢
          omega
        obtain ⟨b, t, rfl⟩ := List.exists_cons_of_ne_nil hb.2.2
        have hl : WordsMax (some 0) q [b :: t] := by
          rw [hqsp]; exact .limit _ _ _ hsp (hp's b rfl)
        rw [hpq]
        exact .word _ [] w q _ hcl (by simp) hwne hws hqs (by rw [hc]; exact hl)
      · rename_i hb
        have hlt : p'.length < n := by
          rw [← hn, ← hp', ← hq]; exact words_dec p hne
        obtain ⟨ws, h1, h2⟩ := ih p'.length hlt p' (r ++ [w]) hp's rfl
        refine ⟨w :: ws, by rw [h1]; simp, ?_⟩
        rw [hpq]
        refine .word _ [] w q _ hcl (by simp) hwne hws hqs ?_
        by_cases hp0 : p' = []
        · subst hp0
          rw [wordsLoop] at h1; simp at h1
          subst h1
          rw [List.append_nil] at hqsp
          exact .none _ _ (by rw [hqsp]; exact hsp)
        · have hc : (cutsLeft iMax r.length).map (· - 1) = cutsLeft iMax (r ++ [w]).length := by
            unfold cutsLeft
            split
            · rfl
            · rename_i h0
              have hb' : ¬ ((r.length : Int) + 1 ≥ iMax - 1) := by
                intro hc; apply hb; refine ⟨h0, ?_, hp0⟩; simpa using hc
              simp only [Option.map_some, List.length_append, List.length_cons, List.length_nil]
              congr 1; omega
          rw [hc, hqsp]
          exact h2.space_append _ hsp

theorem splitWords_spec (s : Bytes) (iMax : Int) :
    WordsMax (if iMax = 0 then none else some (max (iMax - 1) 1).toNat) (cstr s)
      (splitWords s iMax) := by
  unfold splitWords
  obtain ⟨ws, h1, h2⟩ := wordsLoop_spec ((cstr s).dropWhile isspace) iMax [] (by
    intro b hb; rw [← not_isspace_iff]; exact dropWhile_head _ _ b hb)
  rw [h1, List.nil_append]
  have := h2.space_append ((cstr s).takeWhile isspace) (by
    intro b hb; rw [← isspace_iff]; exact takeWhile_all _ _ b hb)
  rw [List.takeWhile_append_dropWhile] at this
  simpa [cutsLeft] using this

theorem _root_.Libube.StringSpec.WordsMax.length_le {n : Nat} {s ws} (h : WordsMax (some n) s ws) :
    ws.length ≤ n + 1 := by
  generalize hc : some n = lim at h
  induction h generalizing n with
  | none => simp
  | limit => simp
  | word lim sp w rest ws hne _ _ _ _ _ ih =>
    subst hc
    have := ih (n := n - 1) rfl
    have : n ≠ 0 := fun h => hne (by rw [h])
    simp; omega

theorem _root_.Libube.StringSpec.WordsMax.words_ok {s ws} (h : Words s ws) :
    ∀ w ∈ ws, w ≠ [] ∧ ∀ b ∈ w, ¬ IsSpace b := by
  unfold Words at h
  generalize hc : (none : Option Nat) = lim at h
  induction h with
  | none => simp
  | limit => simp at hc
  | word lim sp w rest ws _ _ hw hw2 _ _ ih =>
    subst hc
    intro v hv
    rcases List.mem_cons.1 hv with rfl | hv
    · exact ⟨hw, hw2⟩
    · exact ih rfl v hv

theorem _root_.Libube.StringSpec.WordsMax.flatten {s ws} (h : Words s ws) :
    s.filter (fun b => !isspace b) = ws.flatten := by
  unfold Words at h
  generalize hc : (none : Option Nat) = lim at h
  have hsp : ∀ sp : List UInt8, (∀ b ∈ sp, IsSpace b) → sp.filter (fun b => !isspace b) = [] := by
    intro sp h
    rw [List.filter_eq_nil_iff]
    intro b hb
    simp [(isspace_iff b).2 (h b hb)]
  induction h with
  | none _ s h => rw [hsp s h]; rfl
  | limit => simp at hc
  | word lim sp w rest ws _ h1 _ hw2 _ _ ih =>
    subst hc
    rw [List.filter_append, List.filter_append, hsp sp h1, ih rfl, List.flatten_cons,
      List.nil_append]
    congr 1
    rw [List.filter_eq_self]
    intro b hb
    simp [(not_isspace_iff b).2 (hw2 b hb)]

/-- the decomposition space, word, rest is unique -/
theorem word_unique {sp w rest sp' w' rest' : List UInt8} (h : sp ++ w ++ rest = sp' ++ w' ++ rest')
    (h1 : ∀ b ∈ sp, IsSpace b) (h2 : w ≠ []) (h3 : ∀ b ∈ w, ¬ IsSpace b)
    (h4 : ∀ b, rest.head? = some b → IsSpace b)
    (h1' : ∀ b ∈ sp', IsSpace b) (h2' : w' ≠ []) (h3' : ∀ b ∈ w', ¬ IsSpace b)
    (h4' : ∀ b, rest'.head? = some b → IsSpace b) : sp = sp' ∧ w = w' ∧ rest = rest' := by
  have tw : ∀ (sp w rest : List UInt8), (∀ b ∈ sp, IsSpace b) → w ≠ [] → (∀ b ∈ w, ¬ IsSpace b) →
      (∀ b, rest.head? = some b → IsSpace b) →
      (sp ++ w ++ rest).takeWhile isspace = sp ∧
      ((sp ++ w ++ rest).dropWhile isspace).takeWhile (fun b => !isspace b) = w := by
    intro sp w rest h1 h2 h3 h4
    obtain ⟨a, w, rfl⟩ := List.exists_cons_of_ne_nil h2
    have ha : isspace a = false := (not_isspace_iff a).2 (h3 a (by simp))
    have hs : ∀ b ∈ sp, isspace b = true := fun b hb => (isspace_iff b).2 (h1 b hb)
    rw [List.append_assoc]
    constructor
    · rw [List.takeWhile_append_of_pos hs, List.cons_append,
        List.takeWhile_cons_of_neg (by simp [ha])]; simp
    · rw [List.dropWhile_append_of_pos hs, List.cons_append,
        List.dropWhile_cons_of_neg (by simp [ha])]
      rw [← List.cons_append, List.takeWhile_append_of_pos]
      · cases rest with
        | nil => simp
        | cons b t =>
          rw [List.takeWhile_cons_of_neg]
          · simp
          · simp [(isspace_iff b).2 (h4 b rfl)]
      · intro b hb; simp [(not_isspace_iff b).2 (h3 b hb)]
  obtain ⟨a1, a2⟩ := tw sp w rest h1 h2 h3 h4
  obtain ⟨b1, b2⟩ := tw sp' w' rest' h1' h2' h3' h4'
  rw [h] at a1 a2
  have e1 : sp = sp' := by rw [← a1, b1]
  have e2 : w = w' := by rw [← a2, b2]
  subst e1; subst e2
  exact ⟨rfl, rfl, List.append_cancel_left h⟩

theorem not_all_space_of_word {sp w rest : List UInt8} (h2 : w ≠ []) (h3 : ∀ b ∈ w, ¬ IsSpace b)
    (h : ∀ b ∈ sp ++ w ++ rest, IsSpace b) : False := by
  obtain ⟨a, w, rfl⟩ := List.exists_cons_of_ne_nil h2
  exact h3 a (by simp) (h a (by simp))

/-- the limited word list is, up to its last piece, a prefix of the full word list -/
theorem _root_.Libube.StringSpec.WordsMax.limited_prefix {n : Nat} {s ps qs}
    (h : WordsMax (some n) s ps) (h' : Words s qs) :
    ps.dropLast <+: qs ∧ (ps.length ≤ n → ps = qs) := by
  unfold Words at h'
  generalize hc : some n = lim at h
  induction h generalizing n qs with
  | none _ s hs =>
    refine ⟨by simp, fun _ => ?_⟩
    cases h' with
    | none => rfl
    | word _ sp w rest ws _ _ h2 h3 => exact absurd hs (fun h => not_all_space_of_word h2 h3 h)
  | limit sp rest b =>
    injection hc with hc; subst hc
    exact ⟨by simp, by simp⟩
  | word lim sp w rest ws hne h1 h2 h3 h4 hs ih =>
    subst hc
    have hn : n ≠ 0 := fun h => hne (by rw [h])
    generalize hw : sp ++ w ++ rest = t at h'
    cases h' with
    | none _ _ hsp => exact absurd hsp (fun h => not_all_space_of_word h2 h3 (hw ▸ h))
    | word _ sp' w' rest' ws' _ h1' h2' h3' h4' hs' =>
      obtain ⟨rfl, rfl, rfl⟩ := word_unique hw h1 h2 h3 h4 h1' h2' h3' h4'
      obtain ⟨i1, i2⟩ := ih hs' (n := n - 1) rfl
      constructor
      · cases ws with
        | nil => simp
        | cons v vs =>
          rw [List.dropLast_cons_cons]
          exact (List.prefix_cons_inj _).2 i1
      · intro hl
        rw [i2 (by simp at hl; omega)]

/-! ### strip -/

theorem strip_decomp (s : Bytes) (hs : ∃ b ∈ s, ¬ IsSpace b) :
    ∃ a r b, s = a ++ r ++ b ∧ a = s.takeWhile isspace ∧ b.length = (s.reverse.takeWhile isspace).length ∧
      (∀ x ∈ a, IsSpace x) ∧ (∀ x ∈ b, IsSpace x) ∧
      (∀ x, r.head? = some x → ¬ IsSpace x) ∧ (∀ x, r.getLast? = some x → ¬ IsSpace x) := by
  obtain ⟨c, hc, hcs⟩ := hs
  generalize ha : s.takeWhile isspace = a
  generalize ht : s.dropWhile isspace = t
  have hst : s = a ++ t := by rw [← ha, ← ht, List.takeWhile_append_dropWhile]
  have hall : ∀ x ∈ a, IsSpace x := by
    intro b hb; rw [← ha] at hb; rw [← isspace_iff]; exact takeWhile_all _ _ b hb
  have hct : c ∈ t := by
    rw [hst] at hc
    rcases List.mem_append.1 hc with h | h
    · exact absurd (hall c h) hcs
    · exact h
  generalize hb : t.reverse.takeWhile isspace = b
  generalize hr : t.reverse.dropWhile isspace = r
  have htr : t.reverse = b ++ r := by rw [← hb, ← hr, List.takeWhile_append_dropWhile]
  have ht2 : t = r.reverse ++ b.reverse := by
    rw [← List.reverse_append, ← htr, List.reverse_reverse]
  have hball : ∀ x ∈ b, IsSpace x := by
    intro x hx; rw [← hb] at hx; rw [← isspace_iff]; exact takeWhile_all _ _ x hx
  have hrne : r ≠ [] := by
    rintro rfl
    rw [List.append_nil] at htr
    exact hcs (hball c (by rw [← htr]; simpa using hct))
  refine ⟨a, r.reverse, b.reverse, by rw [hst, ht2]; simp, rfl, ?_, hall, by simpa using hball, ?_, ?_⟩
  · rw [hst, List.reverse_append, htr]
    rw [List.length_reverse]
    have : (b ++ r ++ a.reverse).takeWhile isspace = b := by
      rw [List.append_assoc, List.takeWhile_append_of_pos (by
        intro x hx; rw [isspace_iff]; exact hball x hx)]
      obtain ⟨x, r', rfl⟩ := List.exists_cons_of_ne_nil hrne
      have : isspace x = false := dropWhile_head isspace t.reverse x (by rw [hr]; rfl)
      rw [List.cons_append, List.takeWhile_cons_of_neg (by simp [this])]; simp
    rw [this]
  · intro x hx
    have : t.head? = some x := by
      rw [ht2, List.head?_append]
      rw [hx]; rfl
    rw [← ht] at this
    rw [← not_isspace_iff]; exact dropWhile_head _ _ x this
  · intro x hx
    rw [List.getLast?_reverse] at hx
    rw [← hr] at hx
    rw [← not_isspace_iff]; exact dropWhile_head _ _ x hx

theorem stripInPlace_eq (s a r b : Bytes) (h : s = a ++ r ++ b) (ha : a = s.takeWhile isspace)
    (hb : b.length = (s.reverse.takeWhile isspace).length) : stripInPlace s = .ok r := by
  have hn : ((s.length : Int) - (s.takeWhile isspace).length - (s.reverse.takeWhile isspace).length)
      = r.length := by
    rw [← ha, ← hb, h]; simp
  unfold stripInPlace
  simp only [hn]
  rw [← ha, if_neg (by omega)]
  simp only [Int.toNat_natCast]
  have hd : s.drop a.length = r ++ b := by rw [h, List.append_assoc, List.drop_left]
  rw [hd, List.take_left]
  have hs := congrArg List.length h
  simp only [List.length_append] at hs
  by_cases ha0 : a.length > 0
  · rw [if_pos ha0, if_pos (by omega), if_neg (by omega)]; simp
  · rw [if_neg ha0]
    have ha0 : a = [] := by
      apply List.eq_nil_of_length_eq_zero; omega
    rw [ha0, List.nil_append] at h
    by_cases hb0 : b = []
    · rw [hb0, List.append_nil] at h
      rw [h]; simp
    · have := List.length_pos_iff.2 hb0
      rw [if_pos (by omega), if_neg (by omega), h]; simp

end Libube.StringFns

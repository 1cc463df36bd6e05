import Verif.Lemmas.JsonNum
import Verif.Lemmas.MapRun
import Verif.Lemmas.Ini

/-! # Lemmas about the JSON parser -/

namespace Libube.Json

open Libube Libube.CString Libube.JsonSpec

/-! ### more depth does not change a result -/

theorem mono_step (n : Nat) : ∀ f,
    (∀ s, doValue n f s ≠ .diverge → doValue n (f + 1) s = doValue n f s) ∧
    (∀ s ps k, objLoop n f s ps k ≠ .diverge → objLoop n (f + 1) s ps k = objLoop n f s ps k) ∧
    (∀ s a, arrLoop n f s a ≠ .diverge → arrLoop n (f + 1) s a = arrLoop n f s a) := by
  intro f
  induction f with
  | zero =>
    refine ⟨fun s h => ?_, fun s ps k h => ?_, fun s a h => ?_⟩ <;>
      simp [doValue, objLoop, arrLoop] at h
  | succ f ih =>
    obtain ⟨ih1, ih2, ih3⟩ := ih
    refine ⟨fun s h => ?_, fun s ps k h => ?_, fun s a h => ?_⟩
    · rw [doValue] at h ⊢
      conv_rhs => rw [doValue]
      split at h
      · exact ih2 _ _ _ h
      · exact ih3 _ _ h
      · rfl
      · rfl
    · rw [objLoop] at h ⊢
      conv_rhs => rw [objLoop]
      by_cases hfl : s.fail = true
      · rw [if_pos hfl, if_pos hfl]
      · rw [if_neg hfl] at h
        rw [if_neg hfl, if_neg hfl]
        split at h
        · rfl
        · rename_i rest _
          cases hd : doString (34 :: rest) with
          | ok r =>
            rw [hd] at h
            simp only [Outcome.bind_ok] at h ⊢
            exact ih2 _ _ _ h
          | _ => rfl
        · rename_i rest _
          cases hd : doValue n f rest with
          | ok r =>
            rw [ih1 rest (by simp [hd]), hd]
            rw [hd] at h
            simp only [Outcome.bind_ok] at h ⊢
            cases hb : bindKey n ps k r.1 with
            | ok q =>
              rw [hb] at h
              simp only [Outcome.bind_ok] at h ⊢
              exact ih2 _ _ _ h
            | _ => rfl
          | diverge => rw [hd] at h; exact absurd rfl h
          | _ => rw [ih1 rest (by simp [hd]), hd]; rfl
        · exact ih2 _ _ _ h
        · rfl
    · rw [arrLoop] at h ⊢
      conv_rhs => rw [arrLoop]
      by_cases hfl : s.fail = true
      · rw [if_pos hfl, if_pos hfl]
      · rw [if_neg hfl] at h
        rw [if_neg hfl, if_neg hfl]
        split at h
        · rfl
        · exact ih3 _ _ h
        · cases hd : doValue n f (skip s.rest) with
          | ok r =>
            rw [ih1 _ (by simp [hd]), hd]
            rw [hd] at h
            simp only [Outcome.bind_ok] at h ⊢
            cases hb : push a r.1 with
            | ok q =>
              rw [hb] at h
              simp only [Outcome.bind_ok] at h ⊢
              exact ih3 _ _ h
            | _ => rfl
          | diverge => rw [hd] at h; exact absurd rfl h
          | _ => rw [ih1 _ (by simp [hd]), hd]; rfl

theorem doValue_mono {n f f' : Nat} {s r} (h : doValue n f s = r) (hr : r ≠ .diverge) (hf : f ≤ f') :
    doValue n f' s = r := by
  induction f', hf using Nat.le_induction with
  | base => exact h
  | succ f' _ ih => rw [(mono_step n f').1 s (by rw [ih]; exact hr), ih]

theorem objLoop_mono {n f f' : Nat} {s ps k r} (h : objLoop n f s ps k = r) (hr : r ≠ .diverge)
    (hf : f ≤ f') : objLoop n f' s ps k = r := by
  induction f', hf using Nat.le_induction with
  | base => exact h
  | succ f' _ ih => rw [(mono_step n f').2.1 s ps k (by rw [ih]; exact hr), ih]

theorem arrLoop_mono {n f f' : Nat} {s a r} (h : arrLoop n f s a = r) (hr : r ≠ .diverge)
    (hf : f ≤ f') : arrLoop n f' s a = r := by
  induction f', hf using Nat.le_induction with
  | base => exact h
  | succ f' _ ih => rw [(mono_step n f').2.2 s a (by rw [ih]; exact hr), ih]

/-! ### conversions always come to an end -/

/-- Neither a failed assertion nor non-termination. -/
def Calm {α} (o : Outcome α) : Prop := o ≠ .abort ∧ o ≠ .diverge

theorem Calm.ok {α} (a : α) : Calm (.ok a) := ⟨by simp, by simp⟩
theorem Calm.thrown {α} (e) : Calm (.thrown e : Outcome α) := ⟨by simp, by simp⟩
theorem Calm.ub {α} (e) : Calm (.ub e : Outcome α) := ⟨by simp, by simp⟩

theorem Calm.bind {α β} {o : Outcome α} {f : α → Outcome β} (h : Calm o) (hf : ∀ a, Calm (f a)) :
    Calm (o >>= f) := by
  cases o with
  | ok a => exact hf a
  | thrown e => exact Calm.thrown e
  | ub e => exact Calm.ub e
  | abort => exact absurd rfl h.1
  | diverge => exact absurd rfl h.2

theorem truncate_calm (w k x) : Calm (truncate w k x) := by
  unfold truncate
  split
  · exact Calm.ub _
  · simp only; split
    · exact Calm.ok _
    · exact Calm.ub _

theorem scalarToInt_calm (w x) : Calm (scalarToInt w x) := by
  unfold scalarToInt
  split <;> first | exact Calm.ok _ | exact truncate_calm _ _ _ | exact Calm.ub _

theorem castElems_calm {α} (f : Val → Outcome α) (g) (hf : ∀ x, Calm (f x)) (xs) : Calm (castElems f g xs) := by
  induction xs with
  | nil => exact Calm.ok _
  | cons x xs ih =>
    refine Calm.bind ?_ (fun _ => ih)
    unfold castElem
    split
    · split
      · exact Calm.ok _
      · exact Calm.thrown _
    · split
      · split
        · exact Calm.ok _
        · exact Calm.thrown _
      · exact Calm.bind (hf _) (fun _ => Calm.ok _)

theorem castTo_calm {α} (f : Val → Outcome α) (g) (hf : ∀ x, Calm (f x)) (x) : Calm (castTo f g x) := by
  unfold castTo
  split
  · split
    · exact Calm.ok _
    · exact Calm.thrown _
  · exact Calm.bind (castElems_calm f g hf _) (fun _ => Calm.ub _)
  · split
    · exact Calm.bind (castElems_calm f g hf _) (fun _ => Calm.ub _)
    · exact hf _

theorem castCDouble_calm (x : Val) : Calm (castCDouble x) := by
  unfold castCDouble
  split <;> first | exact Calm.ok _ | exact Calm.ub _ | (split <;> first | exact Calm.ok _ | exact Calm.ub _)

theorem push_calm (a x : Val) : Calm (push a x) := by
  unfold push
  split
  · split <;> exact Calm.ok _
  iterate 6 · split <;> first | exact Calm.ok _ | exact Calm.thrown _
  · exact Calm.bind (castTo_calm _ _ (fun x => Calm.bind (scalarToInt_calm _ _) (fun _ => Calm.ok _)) _)
      (fun _ => Calm.ok _)
  · exact Calm.bind (castTo_calm _ _ (scalarToInt_calm _) _) (fun _ => Calm.ok _)
  · exact Calm.bind (castTo_calm _ _ (scalarToInt_calm _) _) (fun _ => Calm.ok _)
  · exact Calm.bind (castTo_calm _ _ (fun _ => Calm.ok _) _) (fun _ => Calm.ok _)
  · exact Calm.bind (castTo_calm _ _ (fun _ => Calm.ok _) _) (fun _ => Calm.ok _)
  · exact Calm.bind (castTo_calm _ _ (fun _ => Calm.ok _) _) (fun _ => Calm.ok _)
  · exact Calm.bind (castCDouble_calm _) (fun _ => Calm.ok _)
  · exact Calm.ok _
  · exact Calm.ok _

/-! ### binding a string key always works -/

theorem binaryLoop_total (cmp : Nat → Outcome Bool) (lo hi : Nat) (h : lo ≤ hi)
    (hc : ∀ pos, lo ≤ pos → pos < hi → ∃ b, cmp pos = .ok b) :
    ∃ r k, binaryLoop cmp lo hi = .ok (r, k) ∧ r ≤ hi := by
  induction hm : hi - lo using Nat.strong_induction_on generalizing lo hi with
  | _ m ih =>
    by_cases hl : lo < hi
    · obtain ⟨b, hb⟩ := hc ((hi - lo) / 2 + lo) (by omega) (by omega)
      cases b with
      | true =>
        rw [Order.binaryLoop_true cmp lo hi hl hb]
        obtain ⟨r, k, h1, h2⟩ := ih (hi - ((hi - lo) / 2 + lo + 1)) (by omega) _ hi (by omega)
          (fun pos h1 h2 => hc pos (by omega) h2) rfl
        exact ⟨r, k + 1, by rw [h1]; rfl, h2⟩
      | false =>
        rw [Order.binaryLoop_false cmp lo hi hl hb]
        obtain ⟨r, k, h1, h2⟩ := ih (((hi - lo) / 2 + lo) - lo) (by omega) lo _ (by omega)
          (fun pos h1 h2 => hc pos h1 (by omega)) rfl
        exact ⟨r, k + 1, by rw [h1]; rfl, by omega⟩
    · exact ⟨hi, 0, Order.binaryLoop_done cmp lo hi hl, le_refl _⟩

/-- All keys are strings. -/
def StrKeys (ps : List (Val × Val)) : Prop := ∀ p ∈ ps, ∃ s, p.1 = .chars s

theorem neq_chars_total (n : Nat) (s t : Bytes) : ∃ b, neq (n + 2) (.chars s) (.chars t) = .ok b := by
  rw [Order.neq_heaps (n + 1) rfl rfl]
  simp only [Val.elems, List.length_map]
  by_cases h : s.length = t.length
  · rw [if_neg (by simp [h]), Order.neqLoop_chars n s t h]
    exact ⟨_, rfl⟩
  · exact ⟨true, by simp [h]⟩

theorem mapSet_total (n : Nat) (ps : List (Val × Val)) (hps : StrKeys ps) (k : Bytes) (v : Val) :
    ∃ ps', mapSet (n + 2) ps (.chars k) v = .ok ps' ∧ StrKeys ps' := by
  obtain ⟨i, hb, hi⟩ : ∃ i, binary (n + 2) (ps.map Prod.fst) (.chars k) = .ok i ∧ i ≤ ps.length := by
    unfold binary binaryCount
    split
    · rename_i h
      exact ⟨0, rfl, Nat.zero_le _⟩
    · obtain ⟨r, c, h1, h2⟩ := binaryLoop_total (fun pos =>
        match (ps.map Prod.fst)[pos]? with
        | some x => lt (n + 2) x (.chars k)
        | none => .ub .outOfBounds) 0 (ps.map Prod.fst).length (Nat.zero_le _) (by
          intro pos _ hp
          rw [List.getElem?_eq_getElem hp]
          simp only [List.getElem_map]
          rw [List.length_map] at hp
          obtain ⟨s, hs⟩ := hps ps[pos] (List.getElem_mem hp)
          rw [hs, Order.lt_chars]
          exact ⟨_, rfl⟩)
      refine ⟨r, ?_, by simpa using h2⟩
      exact (congrArg (fun o : Outcome (Nat × Nat) => o >>= fun x => Outcome.ok x.1) h1).trans rfl
  have hins : insertPair ps (.chars k) i = .ok (ps.take i ++ (.chars k, .nil) :: ps.drop i) := by
    unfold insertPair; rw [if_neg (by omega)]
  have hkeys : ∀ w, StrKeys ((ps.take i ++ (Val.chars k, Val.nil) :: ps.drop i).set i (.chars k, w)) := by
    intro w p hp
    rcases List.mem_or_eq_of_mem_set hp with hp | rfl
    · simp only [List.mem_append, List.mem_cons] at hp
      rcases hp with hp | rfl | hp
      · exact hps p (List.mem_of_mem_take hp)
      · exact ⟨k, rfl⟩
      · exact hps p (List.mem_of_mem_drop hp)
    · exact ⟨k, rfl⟩
  have hat : (ps.take i ++ (Val.chars k, Val.nil) :: ps.drop i)[i]? = some (.chars k, .nil) := by
    rw [List.getElem?_append_right (by simp)]
    simp [Nat.min_eq_left hi]
  have hdef : (!(Val.chars k).defined) = false := rfl
  unfold mapSet mapRef
  rw [hdef]
  simp only [Bool.false_eq_true, if_false, hb, Outcome.bind_ok]
  cases hp : ps[i]? with
  | none =>
    simp only [hins, Outcome.bind_ok, hat]
    exact ⟨_, rfl, hkeys v⟩
  | some p =>
    obtain ⟨s, hs⟩ := hps p (List.mem_of_getElem? hp)
    obtain ⟨b, hbb⟩ := neq_chars_total n s k
    simp only [hs, hbb, Outcome.bind_ok]
    cases b with
    | true =>
      simp only [if_true, hins, Outcome.bind_ok, hat]
      exact ⟨_, rfl, hkeys v⟩
    | false =>
      simp only [Bool.false_eq_true, if_false, Outcome.bind_ok, hp]
      refine ⟨_, rfl, ?_⟩
      intro q hq
      rcases List.mem_or_eq_of_mem_set hq with hq | rfl
      · exact hps q hq
      · exact ⟨s, hs⟩

/-! ### termination -/

theorem skip_suffix (s : Bytes) : skip s <:+ s := List.dropWhile_suffix _

/-- What a call on input `s` may lead to. -/
def Settles (s : Bytes) (o : Outcome (Val × Stream)) : Prop :=
  match o with
  | .ok r => r.2.rest <:+ s
  | .thrown _ => True
  | .ub _ => 91 ∈ s
  | _ => False

/-- The same, with some input consumed. -/
def SettlesStrict (s : Bytes) (o : Outcome (Val × Stream)) : Prop :=
  Settles s o ∧ ∀ r, o = .ok r → r.2.rest.length < s.length

theorem Settles.mono {s t : Bytes} {o} (h : Settles s o) (hs : s <:+ t) : Settles t o := by
  unfold Settles at *
  split <;> simp_all
  · exact h.trans hs
  · exact hs.subset h

theorem strLoop_cases (acc s : Bytes) :
    (∃ e, strLoop acc s = .thrown e) ∨ ∃ k r, strLoop acc s = .ok (k, r) ∧ r <:+ s ∧ r.length < s.length := by
  induction hm : s.length using Nat.strong_induction_on generalizing acc s with
  | _ m ih =>
    subst hm
    match s with
    | [] => left; exact ⟨_, rfl⟩
    | c :: rest =>
      by_cases h1 : c = 34
      · right
        refine ⟨acc, rest, ?_, List.suffix_cons _ _, by simp⟩
        rw [strLoop.eq_def]; simp only [h1, if_true]
      · by_cases h2 : c = 92
        · subst h2
          match rest with
          | [] => left; refine ⟨.error "Unrecognised JSON string escape", ?_⟩; rw [strLoop.eq_def]; simp
          | d :: rest =>
            by_cases h3 : d = 34
            · subst h3
              have hs : strLoop acc (92 :: 34 :: rest) = strLoop (acc ++ [34]) rest := by
                conv_lhs => rw [strLoop.eq_def]
                simp
              rw [hs]
              rcases ih rest.length (by simp) (acc ++ [34]) rest rfl with ⟨e, he⟩ | ⟨k, r, h4, h5, h6⟩
              · left; exact ⟨e, he⟩
              · right
                exact ⟨k, r, h4, h5.trans ((List.suffix_cons _ _).trans (List.suffix_cons _ _)), by simp; omega⟩
            · left
              refine ⟨.error "Unrecognised JSON string escape", ?_⟩
              rw [strLoop.eq_def]
              simp only [h1, if_false, if_true]
              split
              · rename_i h; simp only [List.cons.injEq] at h; exact absurd h.1 h3
              · rfl
        · have hs : strLoop acc (c :: rest) = strLoop (acc ++ [c]) rest := by
            conv_lhs => rw [strLoop.eq_def]
            simp [h1, h2]
          rw [hs]
          rcases ih rest.length (by simp) (acc ++ [c]) rest rfl with ⟨e, he⟩ | ⟨k, r, h4, h5, h6⟩
          · left; exact ⟨e, he⟩
          · right
            exact ⟨k, r, h4, h5.trans (List.suffix_cons _ _), by simp; omega⟩

theorem doString_cases (s : Bytes) :
    (∃ e, doString (34 :: s) = .thrown e) ∨
      ∃ k r, doString (34 :: s) = .ok (k, r) ∧ r <:+ s ∧ r.length < s.length := strLoop_cases [] s

theorem rawLoop_suffix (acc s : Bytes) : (rawLoop acc s).2.rest <:+ s ∧
    (rawLoop acc s).1.length + (rawLoop acc s).2.rest.length ≤ acc.length + s.length := by
  induction s generalizing acc with
  | nil => simp [rawLoop]
  | cons c s ih =>
    rw [rawLoop]
    split
    · exact ⟨List.suffix_cons _ _, by simp⟩
    · have := ih (acc ++ [c])
      refine ⟨this.1.trans (List.suffix_cons _ _), ?_⟩
      have h2 := this.2
      simp only [List.length_append, List.length_cons, List.length_nil] at h2 ⊢
      omega

theorem rawValue_nil : rawValue [] = .thrown (.error "Unrecognised JSON raw value: ") := by
  rfl

theorem rawValue_cases (s : Bytes) : (∃ e, rawValue s = .thrown e) ∨ ∃ v, rawValue s = .ok v := by
  unfold rawValue
  split
  · right; exact ⟨_, rfl⟩
  · split
    · right; exact ⟨_, rfl⟩
    · split
      · right; exact ⟨_, rfl⟩
      · simp only
        split
        · right; exact ⟨_, rfl⟩
        · left; exact ⟨_, rfl⟩

theorem doRaw_settles (s : Bytes) : SettlesStrict s (doRaw s) := by
  have h1 := rawLoop_suffix [] s
  unfold doRaw
  generalize hr : rawLoop [] s = r at h1
  obtain ⟨val, s'⟩ := r
  simp only at h1 ⊢
  rcases rawValue_cases val with ⟨e, he⟩ | ⟨v, hv⟩
  · rw [he]; exact ⟨trivial, by simp⟩
  · have hne : val ≠ [] := by rintro rfl; rw [rawValue_nil] at hv; simp at hv
    rw [hv]
    simp only [Outcome.bind_ok]
    refine ⟨h1.1, ?_⟩
    rintro r ⟨⟩
    have := List.length_pos_of_ne_nil hne
    have h2 := h1.2
    simp only [List.length_nil] at h2
    show s'.rest.length < s.length
    omega

theorem doString_settles (s : Bytes) :
    SettlesStrict (34 :: s) (do let (str, rest) ← doString (34 :: s); .ok (.chars str, ⟨rest, false⟩)) := by
  rcases doString_cases s with ⟨e, he⟩ | ⟨k, r, h1, h2, h3⟩
  · rw [he]; exact ⟨trivial, by simp⟩
  · rw [h1]
    simp only [Outcome.bind_ok]
    refine ⟨h2.trans (List.suffix_cons _ _), ?_⟩
    rintro r ⟨⟩
    simp; omega

theorem settles (n : Nat) : ∀ f,
    (∀ s, 2 * s.length + 1 ≤ f → SettlesStrict s (doValue (n + 2) f s)) ∧
    (∀ (s : Stream) ps k, StrKeys ps → 2 * s.rest.length + 2 ≤ f → Settles s.rest (objLoop (n + 2) f s ps k)) ∧
    (∀ (s : Stream) a, 2 * s.rest.length + 2 ≤ f →
      Settles (91 :: s.rest) (arrLoop (n + 2) f s a) ∧
      ∀ r, arrLoop (n + 2) f s a = .ok r → r.2.rest <:+ s.rest) := by
  intro f
  induction f with
  | zero => refine ⟨fun s h => ?_, fun s ps k _ h => ?_, fun s a h => ?_⟩ <;> omega
  | succ f ih =>
    obtain ⟨ih1, ih2, ih3⟩ := ih
    refine ⟨fun s hf => ?_, fun s ps k hps hf => ?_, fun s a hf => ?_⟩
    · have hsk := skip_suffix s
      have hlen := hsk.length_le
      rw [doValue]
      split
      · rename_i rest h
        rw [h] at hsk hlen
        have hlen : rest.length + 1 ≤ s.length := by simpa using hlen
        have := ih2 ⟨rest, false⟩ [] none (by intro p hp; simp at hp) (by simp only; omega)
        refine ⟨this.mono ((List.suffix_cons _ _).trans hsk), ?_⟩
        intro r hr
        rw [hr] at this
        have := List.IsSuffix.length_le (show r.2.rest <:+ rest from this)
        omega
      · rename_i rest h
        rw [h] at hsk hlen
        have hlen : rest.length + 1 ≤ s.length := by simpa using hlen
        have := ih3 ⟨rest, false⟩ .nil (by simp only; omega)
        refine ⟨this.1.mono hsk, ?_⟩
        intro r hr
        have := List.IsSuffix.length_le (this.2 r hr)
        simp only at this
        omega
      · rename_i rest h
        rw [h] at hsk hlen
        have := doString_settles rest
        exact ⟨this.1.mono hsk, fun r hr => lt_of_lt_of_le (this.2 r hr) hlen⟩
      · have := doRaw_settles (skip s)
        exact ⟨this.1.mono hsk, fun r hr => lt_of_lt_of_le (this.2 r hr) hlen⟩
    · have hsk := skip_suffix s.rest
      have hlen := hsk.length_le
      rw [objLoop]
      split
      · exact List.suffix_refl _
      · split
        · rename_i rest h
          rw [h] at hsk
          exact (List.suffix_cons _ _).trans hsk
        · rename_i rest h
          rw [h] at hsk hlen
          have hlen : rest.length + 1 ≤ s.rest.length := by simpa using hlen
          rcases doString_cases rest with ⟨e, he⟩ | ⟨k, r, h1, h2, h3⟩
          · rw [he]; trivial
          · rw [h1]
            simp only [Outcome.bind_ok]
            exact (ih2 ⟨r, false⟩ ps (some k) hps (by simp only; omega)).mono
              (h2.trans ((List.suffix_cons _ _).trans hsk))
        · rename_i rest h
          rw [h] at hsk hlen
          have hlen : rest.length + 1 ≤ s.rest.length := by simpa using hlen
          have hrest : rest <:+ s.rest := (List.suffix_cons _ _).trans hsk
          have h1 := ih1 rest (by omega)
          generalize doValue (n + 2) f rest = o at h1
          cases o with
          | ok r =>
            have h2 := h1.2 r rfl
            have h3 : r.2.rest <:+ rest := h1.1
            obtain ⟨ps', hb, hps'⟩ : ∃ ps', bindKey (n + 2) ps k r.1 = .ok ps' ∧ StrKeys ps' := by
              cases k with
              | none => exact ⟨ps, rfl, hps⟩
              | some k => exact mapSet_total n ps hps k r.1
            simp only [Outcome.bind_ok, hb]
            exact (ih2 r.2 ps' k hps' (by omega)).mono (h3.trans hrest)
          | thrown e => trivial
          | ub e => exact hrest.subset h1.1
          | abort => exact absurd h1.1 (by simp [Settles])
          | diverge => exact absurd h1.1 (by simp [Settles])
        · rename_i rest h
          rw [h] at hsk hlen
          have hlen : rest.length + 1 ≤ s.rest.length := by simpa using hlen
          exact (ih2 ⟨rest, false⟩ ps none hps (by simp only; omega)).mono ((List.suffix_cons _ _).trans hsk)
        · trivial
    · have hsk := skip_suffix s.rest
      have hlen := hsk.length_le
      rw [arrLoop]
      split
      · exact ⟨List.suffix_cons _ _, by rintro r ⟨⟩; exact List.suffix_refl _⟩
      · split
        · rename_i rest h
          rw [h] at hsk
          have := (List.suffix_cons 93 rest).trans hsk
          exact ⟨this.trans (List.suffix_cons _ _), by rintro r ⟨⟩; exact this⟩
        · rename_i rest h
          rw [h] at hsk hlen
          have hlen : rest.length + 1 ≤ s.rest.length := by simpa using hlen
          have hr := (List.suffix_cons 44 rest).trans hsk
          have := ih3 ⟨rest, false⟩ a (by simp only; omega)
          refine ⟨?_, fun r hr' => (this.2 r hr').trans hr⟩
          have h4 := this.1
          generalize arrLoop (n + 2) f ⟨rest, false⟩ a = o at h4 this
          cases o with
          | ok r => exact ((this.2 r rfl).trans hr).trans (List.suffix_cons _ _)
          | thrown e => trivial
          | ub e => exact List.mem_cons_self
          | abort => exact absurd h4 (by simp [Settles])
          | diverge => exact absurd h4 (by simp [Settles])
        · have h1 := ih1 (skip s.rest) (by omega)
          generalize doValue (n + 2) f (skip s.rest) = o at h1
          cases o with
          | ok r =>
            have h2 := h1.2 r rfl
            have h3 : r.2.rest <:+ skip s.rest := h1.1
            have hc := push_calm a r.1
            simp only [Outcome.bind_ok]
            generalize push a r.1 = p at hc
            cases p with
            | ok a' =>
              simp only [Outcome.bind_ok]
              have := ih3 r.2 a' (by omega)
              refine ⟨?_, fun q hq => (this.2 q hq).trans (h3.trans hsk)⟩
              have h4 := this.1
              generalize arrLoop (n + 2) f r.2 a' = o at h4 this
              cases o with
              | ok q => exact ((this.2 q rfl).trans (h3.trans hsk)).trans (List.suffix_cons _ _)
              | thrown e => trivial
              | ub e => exact List.mem_cons_self
              | abort => exact absurd h4 (by simp [Settles])
              | diverge => exact absurd h4 (by simp [Settles])
            | thrown e => exact ⟨trivial, by rintro r ⟨⟩⟩
            | ub e => exact ⟨List.mem_cons_self, by rintro r ⟨⟩⟩
            | abort => exact absurd rfl hc.1
            | diverge => exact absurd rfl hc.2
          | thrown e => exact ⟨trivial, by rintro r ⟨⟩⟩
          | ub e => exact ⟨List.mem_cons_self, by rintro r ⟨⟩⟩
          | abort => exact absurd h1.1 (by simp [Settles])
          | diverge => exact absurd h1.1 (by simp [Settles])

end Libube.Json

import Verif.Props.FloatInf

/-! # Ranges of floating point numbers increase (C164) -/

namespace Libube.FloatRange

open FloatRangeSpec

theorem rounded_cases {f : Fmt} {p q r : Int} (hq : 0 < q) (h : Rounded f p q r) : Finite f r ∨ r = inf f ∨ r = -inf f := by
  have hB : 0 < (largest f + inf f) * q := Int.mul_pos (largest_pos f) hq
  rcases Int.lt_or_le (2 * |p|) ((largest f + inf f) * q) with g | g
  · exact .inl (h.2 g).1
  · have ep := Int.abs_eq_natAbs p
    rw [h.1 g]
    rcases Int.lt_trichotomy p 0 with s | s | s
    · rw [Int.sign_eq_neg_one_of_neg s]; exact .inr (.inr (by omega))
    · omega
    · rw [Int.sign_eq_one_of_pos s]; exact .inr (.inl (by omega))

/-- Once a step does not increase the number, none does. -/
theorem never_increases {f : Fmt} {lo s lo' y : Int} (hl : Finite f lo) (hs : Finite f s) (h : add (.flt f (some lo)) (.flt f (some s)) = .ok (.flt f (some lo'))) (hle : lo' ≤ lo)
    (hy : y ≤ lo ∧ (Finite f y ∨ y = -inf f)) :
    ∃ z, add (.flt f (some y)) (.flt f (some s)) = .ok (.flt f (some z)) ∧ z ≤ lo ∧ (Finite f z ∨ z = -inf f) := by
  rcases hy with ⟨h1, h2 | rfl⟩
  · obtain ⟨r, e, g⟩ := sum_rounded f lo s hl hs
    obtain ⟨z, e', g'⟩ := sum_rounded f y s h2 hs
    obtain rfl : r = lo' := by rw [e] at h; simpa using h
    have h3 := rounded_mono (by decide) g' g (by omega)
    refine ⟨z, e', by omega, ?_⟩
    rcases rounded_cases (by decide) g' with h4 | h4 | h4
    · exact .inl h4
    · have := finite_abs hl
      have := Int.abs_eq_natAbs lo
      omega
    · exact .inr h4
  · exact ⟨_, (sum_infinite f _ s (.inr rfl) hs).1, h1, .inr rfl⟩

theorem loop_increasing {f : Fmt} {hi s : Int} {cond : Num → Bool} (hcd : ∀ x : Int, cond (.flt f (some x)) = decide (x < hi)) (hs : Finite f s) (hhi : hi ≤ inf f) :
    ∀ (fuel : Nat) (lo : Int) (r out : List Num), Finite f lo → loop cond (.flt f (some s)) fuel (.flt f (some lo)) r = .ok out →
      ∃ xs : List Int, out = r ++ xs.map (fun x => .flt f (some x)) ∧ xs.Pairwise (· < ·) ∧ (∀ x ∈ xs, lo ≤ x ∧ x < hi) ∧ (lo < hi → xs.head? = some lo) := by
  intro fuel
  induction fuel with
  | zero =>
    intro lo r out hlo h
    by_cases hc : lo < hi
    · rw [loop, if_pos (by rw [hcd]; exact decide_eq_true hc)] at h
      cases h
    · rw [loop, if_neg (by rw [hcd]; simpa using hc)] at h
      cases h
      exact ⟨[], by simp, by simp, by simp, fun g => absurd g hc⟩
  | succ n ih =>
    intro lo r out hlo h
    by_cases hc : lo < hi
    · have hcl : cond (.flt f (some lo)) = true := by rw [hcd]; exact decide_eq_true hc
      obtain ⟨lo', e, g⟩ := sum_rounded f lo s hlo hs
      rw [loop, if_pos hcl, e, Outcome.bind_ok] at h
      by_cases hle : lo' ≤ lo
      · exfalso
        have hP := loop_forever (cond := cond) (step := .flt f (some s)) (fun x => ∃ y, x = .flt f (some y) ∧ y ≤ lo ∧ (Finite f y ∨ y = -inf f))
          (fun x hx => by
            obtain ⟨y, rfl, hy⟩ := hx
            obtain ⟨z, e1, hz⟩ := never_increases hlo hs e hle hy
            exact ⟨by rw [hcd]; exact decide_eq_true (by omega), _, e1, z, rfl, hz⟩) n (.flt f (some lo')) (r ++ [.flt f (some lo)])
          ⟨lo', rfl, hle, by
            rcases rounded_cases (by decide) g with h4 | h4 | h4
            · exact .inl h4
            · have := finite_abs hlo
              have := Int.abs_eq_natAbs lo
              omega
            · exact .inr h4⟩
        rw [hP] at h
        cases h
      · rcases rounded_cases (by decide) g with h4 | h4 | h4
        · obtain ⟨xs, h1, h2, h3, -⟩ := ih lo' _ out h4 h
          refine ⟨lo :: xs, by rw [h1]; simp, List.pairwise_cons.2 ⟨fun x hx => ?_, h2⟩, fun x hx => ?_, fun _ => rfl⟩
          · have := (h3 x hx).1; omega
          · rcases List.mem_cons.1 hx with rfl | hx
            · omega
            · have := h3 x hx; omega
        · have hn : cond (.flt f (some lo')) = false := by rw [hcd]; exact decide_eq_false (by omega)
          have : loop cond (.flt f (some s)) n (.flt f (some lo')) (r ++ [.flt f (some lo)]) = .ok (r ++ [.flt f (some lo)]) := by
            cases n <;> simp only [loop] <;> rw [if_neg (by rw [hn]; simp)]
          rw [this] at h
          cases h
          exact ⟨[lo], by simp, by simp, by simpa using hc, fun _ => rfl⟩
        · exfalso
          have := finite_abs hlo
          have := Int.abs_eq_natAbs lo
          omega
    · rw [loop, if_neg (by rw [hcd]; simpa using hc)] at h
      cases h
      exact ⟨[], by simp, by simp, by simp, fun g => absurd g hc⟩

/-- C164, for all finite numbers: whatever `irange` returns increases strictly, begins with `lo` and is below `hi`, whether or not the sums are rounded and whatever
    the sign of the step. -/
theorem irange_increases (f : Fmt) (lo hi s : Int) (hl : Finite f lo) (hh : Finite f hi) (hs : Finite f s) (r : Res)
    (h : irange (.flt f (some lo)) (.flt f (some hi)) (.flt f (some s)) = .ok r) :
    ∃ xs : List Int, Holds r (xs.map fun x => .flt f (some x)) ∧ xs.Pairwise (· < ·) ∧ (∀ x ∈ xs, lo ≤ x ∧ x < hi) ∧ (lo < hi → xs.head? = some lo) := by
  have hi' := finite_abs hh
  have he := Int.abs_eq_natAbs hi
  unfold irange at h
  cases hq : loop (fun x => lt x (.flt f (some hi))) (.flt f (some s)) (limit (.flt f (some lo))) (.flt f (some lo)) [] with
  | ok out =>
    rw [hq] at h
    obtain rfl := Outcome.ok.inj h
    obtain ⟨xs, h1, h2⟩ := loop_increasing (fun x => lt_flt f x hi) hs (by omega) _ _ _ _ hl hq
    rw [List.nil_append] at h1
    exact ⟨xs, by rw [h1]; exact holds_pushed _, h2⟩
  | _ => rw [hq] at h; cases h

/-- C164: so does `range`, up to and including `hi`. -/
theorem range_increases (f : Fmt) (lo hi s : Int) (hl : Finite f lo) (hh : Finite f hi) (hs : Finite f s) (r : Res)
    (h : range (.flt f (some lo)) (.flt f (some hi)) (.flt f (some s)) = .ok r) :
    ∃ xs : List Int, Holds r (xs.map fun x => .flt f (some x)) ∧ xs.Pairwise (· < ·) ∧ (∀ x ∈ xs, lo ≤ x ∧ x ≤ hi) ∧ (lo ≤ hi → xs.head? = some lo) := by
  have hi' := finite_abs hh
  have he := Int.abs_eq_natAbs hi
  unfold range at h
  cases hq : loop (fun x => !lt (.flt f (some hi)) x) (.flt f (some s)) (limit (.flt f (some lo))) (.flt f (some lo)) [] with
  | ok out =>
    rw [hq] at h
    obtain rfl := Outcome.ok.inj h
    obtain ⟨xs, h1, h2, h3, h4⟩ := loop_increasing (hi := hi + 1) (fun x => le_flt f x hi) hs (by omega) _ _ _ _ hl hq
    rw [List.nil_append] at h1
    exact ⟨xs, by rw [h1]; exact holds_pushed _, h2, fun x hx => by have := h3 x hx; omega, fun g => h4 (by omega)⟩
  | _ => rw [hq] at h; cases h

/-- C164 is false for steps that are not positive: while `lo` is below `hi`, they never end. -/
theorem irange_backwards (f : Fmt) (lo hi s : Int) (hl : Finite f lo) (hs : Finite f s) (h0 : s ≤ 0) (h : lo < hi) :
    irange (.flt f (some lo)) (.flt f (some hi)) (.flt f (some s)) = .ub .outOfBounds := by
  obtain ⟨lo', e, g⟩ := sum_rounded f lo s hl hs
  have hle := rounded_mono (by decide) g (rounded_self hl) (by omega)
  rw [irange, loop_forever (fun x => ∃ y, x = .flt f (some y) ∧ y ≤ lo ∧ (Finite f y ∨ y = -inf f))
    (fun x hx => by
      obtain ⟨y, rfl, hy⟩ := hx
      obtain ⟨z, e1, hz⟩ := never_increases hl hs e hle hy
      exact ⟨by rw [lt_flt]; exact decide_eq_true (by omega), _, e1, z, rfl, hz⟩) _ _ _ ⟨lo, rfl, Int.le_refl _, .inl hl⟩]
  rfl

/-- `irange(0.0f, 1.0f, 0.4f)` has three elements, the last sum of which is not exact, and 0.4f is positive; -1 is not. -/
example : Finite .float 0 ∧ Finite .float (2 ^ 149) ∧ Finite .float (0xCCCCCD * 2 ^ 124) ∧ Finite .float (-2 ^ 149) ∧
    ∃ r, irange (.flt .float (some 0)) (.flt .float (some (2 ^ 149))) (.flt .float (some (0xCCCCCD * 2 ^ 124))) = .ok r ∧ r ≠ .nil := by
  refine ⟨⟨0, by decide +kernel, by decide +kernel⟩, ⟨0x3F800000, by decide +kernel, by decide +kernel⟩, ⟨0x3ECCCCCD, by decide +kernel, by decide +kernel⟩,
    ⟨0xBF800000, by decide +kernel, by decide +kernel⟩, ?_⟩
  have h : (match irange (.flt .float (some 0)) (.flt .float (some (2 ^ 149))) (.flt .float (some (0xCCCCCD * 2 ^ 124))) with
    | .ok (.array xs) => xs.length == 3 | _ => false) = true := by decide +kernel
  split at h
  · exact ⟨_, by assumption, by simp⟩
  · cases h

end Libube.FloatRange

#print axioms Libube.FloatRange.irange_increases
#print axioms Libube.FloatRange.range_increases
#print axioms Libube.FloatRange.irange_backwards

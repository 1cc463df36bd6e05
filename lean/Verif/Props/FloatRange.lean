import Verif.Lemmas.FloatRange
import Verif.Props.Range

/-! # Ranges of floating point numbers (C164) -/

namespace Libube.FloatRange

open FloatRangeSpec

theorem holds_pushed (xs : List Num) : Holds (pushed xs) xs := by
  match xs with
  | [] => rfl
  | [_] => rfl
  | _ :: _ :: _ => rfl

theorem one_eq (f : Fmt) : one f = 2 ^ f.unit := by cases f <;> rfl

theorem lt_flt (f : Fmt) (x y : Int) : lt (.flt f (some x)) (.flt f (some y)) = decide (x < y) := by
  simp [lt, Num.code, Ieee.lt]

theorem progression_succ (f : Fmt) (lo s : Int) (n : Nat) : progression f lo s (n + 1) = progression f lo s n ++ [.flt f (some (lo + n * s))] := by
  simp [progression, List.range_succ]

theorem loop_eq {cond : Num → Bool} {step : Num} {f : Fmt} {lo s : Int} {n : Nat}
    (ha : ∀ i : Nat, i < n → add (.flt f (some (lo + i * s))) step = .ok (.flt f (some (lo + (i + 1 : Nat) * s))))
    (hc : ∀ i : Nat, i < n → cond (.flt f (some (lo + i * s))) = true) (hn : cond (.flt f (some (lo + n * s))) = false) :
    ∀ (k i fuel : Nat) (r : List Num), i + k = n → k ≤ fuel → r = progression f lo s i →
      loop cond step fuel (.flt f (some (lo + i * s))) r = .ok (progression f lo s n)
  | 0, i, fuel, r, hk, _, e => by
    obtain rfl : i = n := by omega
    subst e
    cases fuel <;> simp only [loop] <;> rw [if_neg (by rw [hn]; simp)]
  | k + 1, i, 0, r, hk, hf, e => by omega
  | k + 1, i, fuel + 1, r, hk, hf, e => by
    rw [loop, if_pos (hc i (by omega)), ha i (by omega)]
    exact loop_eq ha hc hn k (i + 1) fuel _ (by omega) (by omega) (by rw [progression_succ, e])

theorem grid_bound {f : Fmt} {k : Nat} {x : Int} (hx : ∃ a : Int, x = a * 2 ^ k) (h1 : -(2 ^ (f.frac + 1) * 2 ^ k : Int) ≤ x) (h2 : x ≤ 2 ^ (f.frac + 1) * 2 ^ k) : OnGrid f k x := by
  obtain ⟨a, rfl⟩ := hx
  refine ⟨a, rfl, ?_⟩
  have hk : (0 : Int) < 2 ^ k := by positivity
  have b1 : -(2 ^ (f.frac + 1) : Int) ≤ a := le_of_mul_le_mul_right (by rw [neg_mul]; exact h1) hk
  have b2 : a ≤ 2 ^ (f.frac + 1) := le_of_mul_le_mul_right h2 hk
  have e : ((2 ^ (f.frac + 1) : Nat) : Int) = 2 ^ (f.frac + 1) := by push_cast; rfl
  generalize (2 ^ (f.frac + 1) : Nat) = q at *
  omega

theorem grid_abs {f : Fmt} {k : Nat} {x : Int} (h : OnGrid f k x) : -(2 ^ (f.frac + 1) * 2 ^ k : Int) ≤ x ∧ x ≤ 2 ^ (f.frac + 1) * 2 ^ k ∧ x.natAbs ≤ 2 ^ (f.frac + 1) * 2 ^ k := by
  obtain ⟨a, rfl, ha⟩ := h
  have e : (a * 2 ^ k).natAbs = a.natAbs * 2 ^ k := by rw [Int.natAbs_mul, Int.natAbs_pow]; rfl
  have h3 : (a * 2 ^ k).natAbs ≤ 2 ^ (f.frac + 1) * 2 ^ k := by rw [e]; exact Nat.mul_le_mul_right _ ha
  have e2 : ((2 ^ (f.frac + 1) * 2 ^ k : Nat) : Int) = 2 ^ (f.frac + 1) * 2 ^ k := by push_cast; rfl
  refine ⟨?_, ?_, h3⟩ <;> rw [← e2] <;> omega

theorem finite_lt {f : Fmt} {x : Int} (h : Finite f x) : x.natAbs < 2 ^ f.top := ((finite_iff f x).1 h).2

theorem top_pos {f : Fmt} {k : Nat} (hk : Finite f (2 ^ (f.frac + 1) * 2 ^ k)) : 2 ^ (f.frac + 1) * 2 ^ k < 2 ^ f.top := by
  have := finite_lt hk
  rwa [Int.natAbs_mul, Int.natAbs_pow, Int.natAbs_pow] at this

theorem amount_cast {f : Fmt} {k : Nat} {step : Num} {s : Int} (h : Amount f step s) (hs : OnGrid f k s) (hk : Finite f (2 ^ (f.frac + 1) * 2 ^ k)) : castF f step = some s := by
  rcases h with rfl | ⟨x, rfl, rfl⟩
  · cases f <;> rfl
  · rw [one_eq] at hs ⊢
    rw [castF, rnd_grid hs ((grid_abs hs).2.2.trans (top_pos hk).le)]

theorem addF_grid {f : Fmt} {k : Nat} {x s : Int} (hx : OnGrid f k x) (hs : OnGrid f k s) (hxs : OnGrid f k (x + s)) (hk : Finite f (2 ^ (f.frac + 1) * 2 ^ k)) :
    addF f (some x) (some s) = some (x + s) := by
  have ht := top_pos hk
  rw [addF, if_neg (by have := (grid_abs hx).2.2; omega), if_neg (by have := (grid_abs hs).2.2; omega), rnd_grid hxs ((grid_abs hxs).2.2.trans ht.le)]

theorem exact_core {f : Fmt} {k : Nat} {lo h s : Int} {step : Num} {cond : Num → Bool} (hc : ∀ x : Int, cond (.flt f (some x)) = decide (x < h))
    (hk : Finite f (2 ^ (f.frac + 1) * 2 ^ k)) (hl : OnGrid f k lo) (hst : Amount f step s) (hs : OnGrid f k s) (hp : 0 < s)
    (hh : h + s ≤ 2 ^ (f.frac + 1) * 2 ^ k + 1) (hn : h - lo ≤ 2 ^ 30 * s) :
    ∃ n, loop cond step (2 ^ 30) (.flt f (some lo)) [] = .ok (progression f lo s n) ∧ ∀ i : Nat, i < n ↔ lo + i * s < h := by
  obtain ⟨n, hcount⟩ := Range.exists_count (lo := lo) (hi := h) hp
  refine ⟨n, ?_, hcount⟩
  obtain ⟨l1, l2, -⟩ := grid_abs hl
  have hmul : ∃ a b : Int, lo = a * 2 ^ k ∧ s = b * 2 ^ k := by
    obtain ⟨a, ha, -⟩ := hl
    obtain ⟨b, hb, -⟩ := hs
    exact ⟨a, b, ha, hb⟩
  have hgrid : ∀ i : Nat, lo + i * s ≤ 2 ^ (f.frac + 1) * 2 ^ k → OnGrid f k (lo + i * s) := fun i hi => by
    obtain ⟨a, b, ha, hb⟩ := hmul
    refine grid_bound ⟨a + i * b, by rw [ha, hb]; ring⟩ ?_ hi
    have : 0 ≤ (i : Int) * s := by positivity
    linarith
  have hsucc : ∀ i : Nat, lo + ((i + 1 : Nat) : Int) * s = lo + i * s + s := fun i => by push_cast; ring
  have key := loop_eq (cond := cond) (step := step) (f := f) (lo := lo) (s := s) (n := n)
    (fun i hi => by
      have h1 := (hcount i).1 hi
      have h2 : lo + ((i + 1 : Nat) : Int) * s ≤ 2 ^ (f.frac + 1) * 2 ^ k := by rw [hsucc]; linarith
      rw [add, amount_cast hst hs hk, addF_grid (hgrid i (by linarith [hsucc i])) hs (by rw [← hsucc]; exact hgrid _ h2) hk, ← hsucc])
    (fun i hi => by rw [hc]; exact decide_eq_true ((hcount i).1 hi))
    (by rw [hc]; exact decide_eq_false fun h => by have := (hcount n).2 h; omega)
    n 0 (2 ^ 30) [] (by omega)
    (by
      by_contra hbig
      have h1 := (hcount (2 ^ 30)).1 (by omega)
      push_cast at h1
      linarith)
    rfl
  simpa using key

/-- C164 for `irange`: if lo, step and all sums are multiples of one power of two and small enough to have all digits,
    the result is the progression below `hi`, without rounding.  Missing for the full claim: other numbers, for which
    sums are rounded (`irange_rounded`) and it is false (`irange_drifts`, `irange_stuck`). -/
theorem irange_exact_partial (f : Fmt) (k : Nat) (lo hi s : Int) (step : Num) (hk : Finite f (2 ^ (f.frac + 1) * 2 ^ k)) (hl : OnGrid f k lo)
    (hst : Amount f step s) (hs : OnGrid f k s) (hp : 0 < s) (hh : hi + s ≤ 2 ^ (f.frac + 1) * 2 ^ k) (hn : hi - lo ≤ 2 ^ 30 * s) :
    ∃ r n, irange (.flt f (some lo)) (.flt f (some hi)) step = .ok r ∧ Holds r (progression f lo s n) ∧ ∀ i : Nat, i < n ↔ lo + i * s < hi := by
  obtain ⟨n, e, hc⟩ := exact_core (cond := fun x => lt x (.flt f (some hi))) (fun x => lt_flt f x hi) hk hl hst hs hp (by linarith) hn
  refine ⟨_, n, ?_, holds_pushed _, hc⟩
  rw [irange, limit, e]
  rfl

-- the doubles 0, 0.25 and 1, with the last digit worth 2^-10
example : Finite .double (2 ^ (Fmt.double.frac + 1) * 2 ^ 1064) ∧ OnGrid .double 1064 0 ∧ Amount .double (.flt .double (some (2 ^ 1072))) (2 ^ 1072) ∧
    OnGrid .double 1064 (2 ^ 1072) ∧ (0 : Int) < 2 ^ 1072 ∧ (2 ^ 1074 + 2 ^ 1072 : Int) ≤ 2 ^ (Fmt.double.frac + 1) * 2 ^ 1064 ∧ (2 ^ 1074 - 0 : Int) ≤ 2 ^ 30 * 2 ^ 1072 :=
  ⟨(finite_iff _ _).2 ⟨⟨1, 1117, by decide +kernel, by decide +kernel⟩, by decide +kernel⟩, ⟨0, by simp, by simp⟩, .inl rfl,
    ⟨2 ^ 8, by decide +kernel, by decide +kernel⟩, by positivity, by decide +kernel, by decide +kernel⟩

/-- C164 for `range`, as `irange_exact_partial` and with `hi` included. -/
theorem range_exact_partial (f : Fmt) (k : Nat) (lo hi s : Int) (step : Num) (hk : Finite f (2 ^ (f.frac + 1) * 2 ^ k)) (hl : OnGrid f k lo)
    (hst : Amount f step s) (hs : OnGrid f k s) (hp : 0 < s) (hh : hi + s ≤ 2 ^ (f.frac + 1) * 2 ^ k) (hn : hi - lo < 2 ^ 30 * s) :
    ∃ r n, range (.flt f (some lo)) (.flt f (some hi)) step = .ok r ∧ Holds r (progression f lo s n) ∧ ∀ i : Nat, i < n ↔ lo + i * s ≤ hi := by
  obtain ⟨n, e, hc⟩ := exact_core (h := hi + 1) (cond := fun x => !lt (.flt f (some hi)) x)
    (fun x => by rw [lt_flt]; by_cases h : hi < x <;> simp [h] <;> omega) hk hl hst hs hp (by linarith) (by linarith)
  refine ⟨_, n, ?_, holds_pushed _, fun i => (hc i).trans Int.lt_add_one_iff⟩
  rw [range, limit, e]
  rfl

/-- The whole numbers of a format have their last digits at 1. -/
theorem whole_finite (f : Fmt) : Finite f (2 ^ (f.frac + 1) * 2 ^ f.unit) := by
  rw [finite_iff]
  refine ⟨⟨1, f.frac + 1 + f.unit, ?_, Nat.one_lt_two_pow (by omega)⟩, ?_⟩
  · rw [Int.natAbs_mul, Int.natAbs_pow, Int.natAbs_pow, Nat.one_mul]; exact (Nat.pow_add 2 _ _).symm
  · rw [Int.natAbs_mul, Int.natAbs_pow, Int.natAbs_pow]
    show 2 ^ (f.frac + 1) * 2 ^ f.unit < 2 ^ f.top
    rw [← Nat.pow_add]
    exact Nat.pow_lt_pow_right (by omega) (by cases f <;> decide)

theorem one_grid (f : Fmt) : OnGrid f f.unit (one f) := ⟨1, by rw [one_eq]; ring, Nat.one_le_two_pow⟩

theorem zero_grid (f : Fmt) (k : Nat) : OnGrid f k 0 := ⟨0, by ring, Nat.zero_le _⟩

theorem one_pos (f : Fmt) : 0 < one f := by rw [one_eq]; positivity

theorem int_one (f : Fmt) : Amount f (.int ⟨.int, 1⟩) (one f) := .inr ⟨_, rfl, by ring⟩

theorem sub_self' {f : Fmt} {x : Int} (h : Finite f x) : sub (.flt f (some x)) (.flt f (some x)) = .ok (.flt f (some 0)) := by
  have ht := finite_lt h
  have hc : castF f (.flt f (some x)) = some x := by cases f <;> rfl
  have hz : rnd f 0 (x + -x) = 0 := by rw [Int.add_right_neg]; exact rnd_grid (zero_grid f 0) (by simp)
  rw [sub, hc]
  show Outcome.ok (Num.flt f (addF f (some x) (some (-x)))) = _
  rw [addF, if_neg ht.ne, if_neg (by rw [Int.natAbs_neg]; exact ht.ne), hz]

/-- C164 for `irange(hi)`: the whole numbers from 0 below `hi`, which need not be whole. -/
theorem irange1_float_partial (f : Fmt) (hi : Int) (hf : Finite f hi) (hh : hi + one f ≤ 2 ^ (f.frac + 1) * one f) (hn : hi ≤ 2 ^ 30 * one f) :
    ∃ r n, irange1 (.flt f (some hi)) = .ok r ∧ Holds r (progression f 0 (one f) n) ∧ ∀ i : Nat, i < n ↔ i * one f < hi := by
  obtain ⟨r, n, e, h1, h2⟩ := irange_exact_partial f f.unit 0 hi (one f) _ (whole_finite f) (zero_grid f _) (int_one f) (one_grid f) (one_pos f)
    (by rw [one_eq] at *; exact hh) (by simpa using hn)
  refine ⟨r, n, ?_, h1, by simpa using h2⟩
  rw [irange1, sub_self' hf]
  exact e

-- 2.5
example : Finite .double (5 * 2 ^ 1073) ∧ (5 * 2 ^ 1073 + one .double : Int) ≤ 2 ^ (Fmt.double.frac + 1) * one .double ∧ (5 * 2 ^ 1073 : Int) ≤ 2 ^ 30 * one .double :=
  ⟨(finite_iff _ _).2 ⟨⟨5, 1073, by decide +kernel, by decide +kernel⟩, by decide +kernel⟩, by decide +kernel, by decide +kernel⟩

/-- C164 for `range(hi)`: the whole numbers from 1 up to `hi`. -/
theorem range1_float_partial (f : Fmt) (hi : Int) (hf : Finite f hi) (hh : hi + one f ≤ 2 ^ (f.frac + 1) * one f) (hn : hi ≤ 2 ^ 30 * one f) :
    ∃ r n, range1 (.flt f (some hi)) = .ok r ∧ Holds r (progression f (one f) (one f) n) ∧ ∀ i : Nat, i < n ↔ (i + 1) * one f ≤ hi := by
  have hp := one_pos f
  obtain ⟨r, n, e, h1, h2⟩ := range_exact_partial f f.unit (one f) hi (one f) _ (whole_finite f) (one_grid f) (int_one f) (one_grid f) (one_pos f)
    (by rw [one_eq] at *; exact hh) (by linarith)
  refine ⟨r, n, ?_, h1, fun i => (h2 i).trans (by rw [show one f + i * one f = (i + 1) * one f by ring])⟩
  have ha : add (.flt f (some 0)) (.int ⟨.int, 1⟩) = .ok (.flt f (some (one f))) := by
    rw [add, amount_cast (int_one f) (one_grid f) (whole_finite f),
      addF_grid (zero_grid f f.unit) (one_grid f) (by rw [Int.zero_add]; exact one_grid f) (whole_finite f), Int.zero_add]
  rw [range1, sub_self' hf, Outcome.bind_ok, ha]
  exact e

/-! ## Rounding -/

theorem add_flt {f : Fmt} {x s : Int} (hx : Finite f x) (hs : Finite f s) : add (.flt f (some x)) (.flt f (some s)) = .ok (.flt f (some (rnd f 0 (x + s)))) := by
  have hc : castF f (.flt f (some s)) = some s := by cases f <;> rfl
  rw [add, hc, addF, if_neg (finite_lt hx).ne, if_neg (finite_lt hs).ne]

theorem between_finite {f : Fmt} {a M x : Int} (ha : Finite f a) (hM : Finite f M) (h1 : a ≤ x) (h2 : x ≤ M) : Closest f x (rnd f 0 x) := by
  refine rnd_closest ?_
  have := rnd_le h2 hM
  have := le_rnd h1 ha
  have := finite_lt ha
  have := finite_lt hM
  omega

theorem loop_rounded {f : Fmt} {hi s M : Int} {cond : Num → Bool} (hcd : ∀ x : Int, cond (.flt f (some x)) = decide (x < hi)) (hs : Finite f s) (h0 : 0 ≤ s) (hM : Finite f M) (hhi : hi + s ≤ M + 1) :
    ∀ (fuel : Nat) (lo : Int) (r out : List Num), Finite f lo →
      loop cond (.flt f (some s)) fuel (.flt f (some lo)) r = .ok out →
      ∃ (xs : List Int) (e : Int), out = r ++ xs.map (fun x => .flt f (some x)) ∧ (xs ++ [e]).head? = some lo ∧ (∀ x ∈ xs, x < hi) ∧ hi ≤ e ∧
        ∀ i x y, (xs ++ [e])[i]? = some x → (xs ++ [e])[i + 1]? = some y → Closest f (x + s) y := by
  intro fuel
  induction fuel with
  | zero =>
    intro lo r out hlo h
    rw [loop, hcd] at h
    by_cases hc : lo < hi
    · rw [if_pos (decide_eq_true hc)] at h; exact absurd h (by simp)
    · rw [if_neg (by simpa using hc)] at h
      refine ⟨[], lo, by simpa using (Outcome.ok.inj h).symm, rfl, by simp, by omega, fun i x y _ h2 => by simp at h2⟩
  | succ n ih =>
    intro lo r out hlo h
    rw [loop, hcd] at h
    by_cases hc : lo < hi
    · rw [if_pos (decide_eq_true hc), add_flt hlo hs] at h
      have hcl := between_finite (x := lo + s) hlo hM (by omega) (by omega)
      obtain ⟨xs, e, h1, h2, h3, h4, h5⟩ := ih _ _ _ hcl.1 h
      refine ⟨lo :: xs, e, by rw [h1]; simp, rfl, by rintro x (_ | ⟨_, hx⟩); exacts [hc, h3 x (by assumption)], h4, ?_⟩
      rintro (_ | i) x y hx hy
      · obtain rfl : lo = x := by simpa using hx
        have : (xs ++ [e])[0]? = some y := by simpa using hy
        rw [← List.head?_eq_getElem?, h2] at this
        obtain rfl := Option.some.inj this
        exact hcl
      · exact h5 i x y (by simpa using hx) (by simpa using hy)
    · rw [if_neg (by simpa using hc)] at h
      refine ⟨[], lo, by simpa using (Outcome.ok.inj h).symm, rfl, by simp, by omega, fun i x y _ h2 => by simp at h2⟩

/-- C164, for all finite numbers: what `irange` returns starts with `lo`, each further number is one closest to
    the number before plus the step, all are below `hi`, and the one that would follow is not. -/
theorem irange_rounded (f : Fmt) (lo hi s M : Int) (hl : Finite f lo) (hs : Finite f s) (h0 : 0 ≤ s) (hM : Finite f M) (hhi : hi + s ≤ M) (r : Res)
    (h : irange (.flt f (some lo)) (.flt f (some hi)) (.flt f (some s)) = .ok r) :
    ∃ (xs : List Int) (e : Int), Holds r (xs.map fun x => .flt f (some x)) ∧ (xs ++ [e]).head? = some lo ∧ (∀ x ∈ xs, x < hi) ∧ hi ≤ e ∧
      ∀ i x y, (xs ++ [e])[i]? = some x → (xs ++ [e])[i + 1]? = some y → Closest f (x + s) y := by
  unfold irange at h
  cases hq : loop (fun x => lt x (.flt f (some hi))) (.flt f (some s)) (limit (.flt f (some lo))) (.flt f (some lo)) [] with
  | ok out =>
    rw [hq] at h
    obtain rfl := Outcome.ok.inj h
    obtain ⟨xs, e, h1, h2⟩ := loop_rounded (fun x => lt_flt f x hi) hs h0 hM (by omega) _ _ _ _ hl hq
    exact ⟨xs, e, by rw [h1, List.nil_append]; exact holds_pushed _, h2⟩
  | _ => rw [hq] at h; exact absurd h (by simp)

theorem loop_ends {f : Fmt} {k : Nat} {hi s M : Int} {cond : Num → Bool} (hcd : ∀ x : Int, cond (.flt f (some x)) = decide (x < hi)) (hs : Finite f s) (hM : Finite f M) (hhi : hi + s ≤ M + 1) (hk : 2 ^ k ≤ s)
    (hg : hi + s ≤ 2 ^ (f.frac + 1) * 2 ^ k) :
    ∀ (fuel : Nat) (lo : Int) (r : List Num), Finite f lo → -(2 ^ (f.frac + 1) * 2 ^ k : Int) < lo → 2 * (hi - lo) ≤ fuel * s →
      ∃ out, loop cond (.flt f (some s)) fuel (.flt f (some lo)) r = .ok out := by
  intro fuel
  have hsp : 0 < s := lt_of_lt_of_le (by positivity) hk
  induction fuel with
  | zero =>
    intro lo r hlo hb h
    rw [loop, hcd, if_neg (by simp at h ⊢; omega)]
    exact ⟨_, rfl⟩
  | succ n ih =>
    intro lo r hlo hb h
    rw [loop, hcd]
    by_cases hc : lo < hi
    · rw [if_pos (decide_eq_true hc), add_flt hlo hs]
      have hcl := between_finite (x := lo + s) hlo hM (by omega) (by omega)
      have habs : (lo + s).natAbs < 2 ^ (f.frac + 1) * 2 ^ k := by
        have e2 : ((2 ^ (f.frac + 1) * 2 ^ k : Nat) : Int) = 2 ^ (f.frac + 1) * 2 ^ k := by push_cast; rfl
        rw [← e2] at hg hb
        omega
      have herr := rnd_error habs (finite_lt hcl.1)
      have hge := le_rnd (f := f) (x := lo + s) (M := lo) (by omega) hlo
      have herr' : 2 * ((lo + s) - rnd f 0 (lo + s)) ≤ s := by
        have e3 : ((2 ^ k : Nat) : Int) = 2 ^ k := by push_cast; rfl
        rw [← e3] at hk
        omega
      refine ih _ _ hcl.1 (by omega) ?_
      push_cast at h
      linarith
    · rw [if_neg (by simpa using hc)]
      exact ⟨_, rfl⟩

/-- C164, termination: `irange` returns if the step is not less than the last digit of any number up to `hi` is worth,
    and half of the step is contained in the interval at most 2^30 times. -/
theorem irange_ends_partial (f : Fmt) (k : Nat) (lo hi s M : Int) (hl : Finite f lo) (hs : Finite f s) (hM : Finite f M) (hhi : hi + s ≤ M) (hk : 2 ^ k ≤ s)
    (hg : hi + s ≤ 2 ^ (f.frac + 1) * 2 ^ k) (hb : -(2 ^ (f.frac + 1) * 2 ^ k : Int) < lo) (hn : 2 * (hi - lo) ≤ 2 ^ 30 * s) :
    ∃ r, irange (.flt f (some lo)) (.flt f (some hi)) (.flt f (some s)) = .ok r := by
  obtain ⟨out, e⟩ := loop_ends (cond := fun x => lt x (.flt f (some hi))) (fun x => lt_flt f x hi) hs hM (by omega) hk hg (2 ^ 30) lo [] hl hb (by push_cast; exact hn)
  refine ⟨pushed out, ?_⟩
  rw [irange, limit, e]
  rfl

-- `irange(0.0, 1.0, 0.1)`, with last digits worth less than 0.1
example : Finite .double 0 ∧ Finite .double (0x1999999999999A * 2 ^ 1018) ∧ Finite .double (2 ^ 1075) ∧ (2 ^ 1074 + 0x1999999999999A * 2 ^ 1018 : Int) ≤ 2 ^ 1075 ∧
    (2 ^ 1070 : Int) ≤ 0x1999999999999A * 2 ^ 1018 ∧ (2 ^ 1074 + 0x1999999999999A * 2 ^ 1018 : Int) ≤ 2 ^ (Fmt.double.frac + 1) * 2 ^ 1070 ∧
    -(2 ^ (Fmt.double.frac + 1) * 2 ^ 1070 : Int) < 0 ∧ (2 * (2 ^ 1074 - 0) : Int) ≤ 2 ^ 30 * (0x1999999999999A * 2 ^ 1018) :=
  ⟨(finite_iff _ _).2 ⟨⟨0, 0, by decide +kernel, by decide +kernel⟩, by decide +kernel⟩,
    (finite_iff _ _).2 ⟨⟨0x1999999999999A, 1018, by decide +kernel, by decide +kernel⟩, by decide +kernel⟩,
    (finite_iff _ _).2 ⟨⟨1, 1075, by decide +kernel, by decide +kernel⟩, by decide +kernel⟩,
    by decide +kernel, by decide +kernel, by decide +kernel, by decide +kernel, by decide +kernel⟩

theorem le_flt (f : Fmt) (x y : Int) : (!lt (.flt f (some y)) (.flt f (some x))) = decide (x < y + 1) := by
  rw [lt_flt]
  by_cases h : y < x <;> simp [h] <;> omega

/-- C164, for all finite numbers: as `irange_rounded` for `range`, with `hi` included. -/
theorem range_rounded (f : Fmt) (lo hi s M : Int) (hl : Finite f lo) (hs : Finite f s) (h0 : 0 ≤ s) (hM : Finite f M) (hhi : hi + s ≤ M) (r : Res)
    (h : range (.flt f (some lo)) (.flt f (some hi)) (.flt f (some s)) = .ok r) :
    ∃ (xs : List Int) (e : Int), Holds r (xs.map fun x => .flt f (some x)) ∧ (xs ++ [e]).head? = some lo ∧ (∀ x ∈ xs, x ≤ hi) ∧ hi < e ∧
      ∀ i x y, (xs ++ [e])[i]? = some x → (xs ++ [e])[i + 1]? = some y → Closest f (x + s) y := by
  unfold range at h
  cases hq : loop (fun x => !lt (.flt f (some hi)) x) (.flt f (some s)) (limit (.flt f (some lo))) (.flt f (some lo)) [] with
  | ok out =>
    rw [hq] at h
    obtain rfl := Outcome.ok.inj h
    obtain ⟨xs, e, h1, h2, h3, h4, h5⟩ := loop_rounded (hi := hi + 1) (fun x => le_flt f x hi) hs h0 hM (by omega) _ _ _ _ hl hq
    exact ⟨xs, e, by rw [h1, List.nil_append]; exact holds_pushed _, h2, fun x hx => Int.lt_add_one_iff.1 (h3 x hx), h4, h5⟩
  | _ => rw [hq] at h; exact absurd h (by simp)

-- `range(1.0, 2.0, 1.0)`
example : Finite .double (2 ^ 1074) ∧ Finite .double (2 ^ 1076) ∧ (2 ^ 1075 + 2 ^ 1074 : Int) ≤ 2 ^ 1076 ∧
    range (.flt .double (some (2 ^ 1074))) (.flt .double (some (2 ^ 1075))) (.flt .double (some (2 ^ 1074))) =
      .ok (.array [.flt .double (some (2 ^ 1074)), .flt .double (some (2 ^ 1075))]) :=
  ⟨(finite_iff _ _).2 ⟨⟨1, 1074, by decide +kernel, by decide +kernel⟩, by decide +kernel⟩,
    (finite_iff _ _).2 ⟨⟨1, 1076, by decide +kernel, by decide +kernel⟩, by decide +kernel⟩, by decide +kernel, by decide +kernel⟩

/-- C164, termination of `range`, as `irange_ends_partial`. -/
theorem range_ends_partial (f : Fmt) (k : Nat) (lo hi s M : Int) (hl : Finite f lo) (hs : Finite f s) (hM : Finite f M) (hhi : hi + s ≤ M) (hk : 2 ^ k ≤ s)
    (hg : hi + s < 2 ^ (f.frac + 1) * 2 ^ k) (hb : -(2 ^ (f.frac + 1) * 2 ^ k : Int) < lo) (hn : 2 * (hi - lo) + 2 ≤ 2 ^ 30 * s) :
    ∃ r, range (.flt f (some lo)) (.flt f (some hi)) (.flt f (some s)) = .ok r := by
  obtain ⟨out, e⟩ := loop_ends (hi := hi + 1) (cond := fun x => !lt (.flt f (some hi)) x) (fun x => le_flt f x hi) hs hM (by omega) hk (by omega)
    (2 ^ 30) lo [] hl hb (by push_cast; linarith)
  refine ⟨pushed out, ?_⟩
  rw [range, limit, e]
  rfl

-- `range(0.0, 1.0, 0.1)`, with last digits worth less than 0.1
example : Finite .double 0 ∧ Finite .double (0x1999999999999A * 2 ^ 1018) ∧ Finite .double (2 ^ 1075) ∧ (2 ^ 1074 + 0x1999999999999A * 2 ^ 1018 : Int) ≤ 2 ^ 1075 ∧
    (2 ^ 1070 : Int) ≤ 0x1999999999999A * 2 ^ 1018 ∧ (2 ^ 1074 + 0x1999999999999A * 2 ^ 1018 : Int) < 2 ^ (Fmt.double.frac + 1) * 2 ^ 1070 ∧
    -(2 ^ (Fmt.double.frac + 1) * 2 ^ 1070 : Int) < 0 ∧ (2 * (2 ^ 1074 - 0) + 2 : Int) ≤ 2 ^ 30 * (0x1999999999999A * 2 ^ 1018) :=
  ⟨(finite_iff _ _).2 ⟨⟨0, 0, by decide +kernel, by decide +kernel⟩, by decide +kernel⟩,
    (finite_iff _ _).2 ⟨⟨0x1999999999999A, 1018, by decide +kernel, by decide +kernel⟩, by decide +kernel⟩,
    (finite_iff _ _).2 ⟨⟨1, 1075, by decide +kernel, by decide +kernel⟩, by decide +kernel⟩,
    by decide +kernel, by decide +kernel, by decide +kernel, by decide +kernel, by decide +kernel⟩

/-! ## Where it fails -/

theorem loop_forever {cond : Num → Bool} {step : Num} (P : Num → Prop) (hP : ∀ x, P x → cond x = true ∧ ∃ y, add x step = .ok y ∧ P y) :
    ∀ (fuel : Nat) (lo : Num) (r : List Num), P lo → loop cond step fuel lo r = .ub .outOfBounds
  | 0, lo, r, h => by rw [loop, if_pos (hP lo h).1]
  | n + 1, lo, r, h => by
    obtain ⟨h1, y, h2, h3⟩ := hP lo h
    rw [loop, if_pos h1, h2]
    exact loop_forever P hP n y _ h3

/-- C164 is false: where the step is less than half of what the last digit of `lo` is worth, adding it changes nothing,
    and the memory is exceeded. -/
theorem irange_stuck (f : Fmt) (k : Nat) (lo hi s : Int) (hl : LastDigit f k lo) (hf : Finite f lo) (hs : Finite f s) (h0 : 0 ≤ s)
    (hk : 2 * s < 2 ^ k ∨ (2 * s = 2 ^ k ∧ (2 ^ (k + 1) : Int) ∣ lo)) (hlt : lo < hi) :
    irange (.flt f (some lo)) (.flt f (some hi)) (.flt f (some s)) = .ub .outOfBounds := by
  rw [irange, loop_forever (fun x => x = .flt f (some lo))
    (fun x hx => by
      subst hx
      exact ⟨by rw [lt_flt]; exact decide_eq_true hlt, _, add_flt hf hs, by rw [rnd_stuck hl hf h0 hk]⟩) _ _ _ rfl]
  rfl

/-- The same for `range`, also for `lo` equal to `hi`. -/
theorem range_stuck (f : Fmt) (k : Nat) (lo hi s : Int) (hl : LastDigit f k lo) (hf : Finite f lo) (hs : Finite f s) (h0 : 0 ≤ s)
    (hk : 2 * s < 2 ^ k ∨ (2 * s = 2 ^ k ∧ (2 ^ (k + 1) : Int) ∣ lo)) (hlt : lo ≤ hi) :
    range (.flt f (some lo)) (.flt f (some hi)) (.flt f (some s)) = .ub .outOfBounds := by
  rw [range, loop_forever (fun x => x = .flt f (some lo))
    (fun x hx => by
      subst hx
      exact ⟨by rw [le_flt]; exact decide_eq_true (by omega), _, add_flt hf hs, by rw [rnd_stuck hl hf h0 hk]⟩) _ _ _ rfl]
  rfl

-- 2^53 and steps of 1
example : LastDigit .double 1075 (2 ^ 1127) ∧ Finite .double (2 ^ 1127) ∧ Finite .double (2 ^ 1074) ∧ (2 * 2 ^ 1074 : Int) = 2 ^ 1075 ∧ (2 ^ (1075 + 1) : Int) ∣ 2 ^ 1127 :=
  ⟨⟨2 ^ 52, by decide +kernel, by decide +kernel, by decide +kernel⟩, (finite_iff _ _).2 ⟨⟨1, 1127, by decide +kernel, by decide +kernel⟩, by decide +kernel⟩,
    (finite_iff _ _).2 ⟨⟨1, 1074, by decide +kernel, by decide +kernel⟩, by decide +kernel⟩, by decide +kernel, ⟨2 ^ 51, by decide +kernel⟩⟩

/-- `range` with a NaN for a bound exceeds the memory. -/
theorem range_nan (f : Fmt) (x : Option Int) (step : Num) :
    range (.flt f x) (.flt f none) step = .ub .outOfBounds ∧ range (.flt f none) (.flt f x) step = .ub .outOfBounds := by
  constructor
  · rw [range, loop_forever (fun y => ∃ v, y = .flt f v)
      (fun y hy => by
        obtain ⟨v, rfl⟩ := hy
        exact ⟨by simp [lt, Num.code, Ieee.lt], _, rfl, _, rfl⟩) _ _ _ ⟨x, rfl⟩]
    rfl
  · rw [range, loop_forever (fun y => y = .flt f none)
      (fun y hy => by
        subst hy
        exact ⟨by cases x <;> simp [lt, Num.code, Ieee.lt], _, rfl, rfl⟩) _ _ _ rfl]
    rfl

/-- `irange` with a NaN for a bound is nil. -/
theorem irange_nan (f : Fmt) (x : Option Int) (step : Num) :
    irange (.flt f x) (.flt f none) step = .ok .nil ∧ irange (.flt f none) (.flt f x) step = .ok .nil := by
  have h : ∀ a b : Num, lt a b = false → irange a b step = .ok .nil := fun a b hab => by
    rw [irange]
    cases limit a <;> simp only [loop, hab] <;> rfl
  constructor
  · exact h _ _ (by cases x <;> simp [lt, Num.code, Ieee.lt])
  · exact h _ _ (by simp [lt, Num.code, Ieee.lt])

theorem add_code (a b : Num) : (∃ y, add a b = .ok y ∧ y.code = a.code) ∨ add a b = .ub .overflow := by
  cases a with
  | flt f v => exact .inl ⟨_, rfl, rfl⟩
  | int x =>
    have hc : (∃ c, castI x.ty b = .ok c) ∨ castI x.ty b = .ub .overflow := by
      match b with
      | .int y => exact .inl ⟨_, rfl⟩
      | .flt _ none => exact .inr rfl
      | .flt g (some v) =>
        show (∃ c, (if Range.inRange x.ty (v.tdiv (2 ^ g.unit)) then Outcome.ok (v.tdiv (2 ^ g.unit)) else .ub .overflow) = .ok c) ∨
          (if Range.inRange x.ty (v.tdiv (2 ^ g.unit)) then Outcome.ok (v.tdiv (2 ^ g.unit)) else .ub .overflow) = .ub .overflow
        split
        · exact .inl ⟨_, rfl⟩
        · exact .inr rfl
    rcases hc with ⟨c, hc⟩ | hc
    · by_cases hr : Range.inRange x.ty (x.v + c) = true
      · exact .inl ⟨.int ⟨x.ty, x.v + c⟩, by simp only [add, hc, Outcome.bind_ok, Range.arith_ok hr], rfl⟩
      · by_cases ht : x.ty = .char
        · refine .inl ⟨.int ⟨.char, Int.bmod (x.v + c) (2 ^ 8)⟩, ?_, by simp [Num.code, ht]⟩
          rw [add, hc, Outcome.bind_ok, ht]
          rfl
        · refine .inr ?_
          simp only [add, hc, Outcome.bind_ok, Range.arith_bad (by simpa using hr) ht]
          rfl
    · refine .inr ?_
      simp only [add, hc]
      rfl

theorem loop_code {cond : Num → Bool} {step : Num} {c : Nat} (hc : ∀ x : Num, x.code = c → cond x = true) :
    ∀ (fuel : Nat) (lo : Num) (r : List Num), lo.code = c → loop cond step fuel lo r = .ub .outOfBounds ∨ loop cond step fuel lo r = .ub .overflow
  | 0, lo, r, h => by rw [loop, if_pos (hc lo h)]; exact .inl rfl
  | n + 1, lo, r, h => by
    rw [loop, if_pos (hc lo h)]
    rcases add_code lo step with ⟨y, e, hy⟩ | e
    · rw [e]
      exact loop_code hc n y _ (hy.trans h)
    · rw [e]
      exact .inr rfl

/-- C164 is false for bounds of different types: with `lo` of the lesser type (`irange(0, 1.0)`), neither form returns. -/
theorem mixed_undefined (lo hi step : Num) (h : lo.code < hi.code) :
    (irange lo hi step = .ub .outOfBounds ∨ irange lo hi step = .ub .overflow) ∧ (range lo hi step = .ub .outOfBounds ∨ range lo hi step = .ub .overflow) := by
  constructor
  · have := loop_code (cond := fun x => lt x hi) (step := step) (c := lo.code)
      (fun x hx => by unfold lt; rw [if_neg (by omega)]; exact decide_eq_true (by omega)) (limit lo) lo [] rfl
    unfold irange
    rcases this with e | e <;> rw [e] <;> simp
  · have := loop_code (cond := fun x => !lt hi x) (step := step) (c := lo.code)
      (fun x hx => by unfold lt; rw [if_neg (by omega), decide_eq_false (by omega)]; rfl) (limit lo) lo [] rfl
    unfold range
    rcases this with e | e <;> rw [e] <;> simp

-- `irange(0, 1.0, 0.25)`
example : (Num.int ⟨.int, 0⟩).code < (Num.flt .double (some (2 ^ 1074))).code := by decide

/-- With `lo` of the greater type (`irange(0.0, 1)`), both forms give nil, whatever the numbers. -/
theorem mixed_empty (lo hi step : Num) (h : hi.code < lo.code) : irange lo hi step = .ok .nil ∧ range lo hi step = .ok .nil := by
  have h1 : lt lo hi = false := by unfold lt; rw [if_neg (by omega)]; exact decide_eq_false (by omega)
  have h2 : lt hi lo = true := by unfold lt; rw [if_neg (by omega)]; exact decide_eq_true (by omega)
  constructor
  · rw [irange]
    cases limit lo <;> simp only [loop, h1] <;> rfl
  · rw [range]
    cases limit lo <;> simp only [loop, h2] <;> rfl

/-- C164 is false: 0.1 as a double is more than a tenth, so ten steps from 0 are beyond 1, but `irange(0.0, 1.0, 0.1)` has
    eleven elements, as the sums are rounded down. -/
theorem irange_drifts : ∃ s h : Int, Ieee.val64 0x3FB999999999999A#64 = some s ∧ Ieee.val64 0x3FF0000000000000#64 = some h ∧ (∀ i : Nat, i * s < h ↔ i < 10) ∧
    ∃ xs, irange (.flt .double (some 0)) (.flt .double (some h)) (.flt .double (some s)) = .ok (.array xs) ∧ xs.length = 11 := by
  refine ⟨0x1999999999999A * 2 ^ 1018, 2 ^ 1074, by decide +kernel, by decide +kernel, fun i => ?_, ?_⟩
  · have e : (2 : Int) ^ 1074 = 2 ^ 56 * 2 ^ 1018 := by rw [← pow_add]
    rw [e, ← mul_assoc]
    rw [mul_lt_mul_iff_left₀ (by positivity)]
    omega
  · have h : (match irange (.flt .double (some 0)) (.flt .double (some (2 ^ 1074))) (.flt .double (some (0x1999999999999A * 2 ^ 1018))) with
        | .ok (.array xs) => xs.length == 11
        | _ => false) = true := by decide +kernel
    split at h
    · rename_i xs e
      exact ⟨xs, e, by simpa using h⟩
    · exact absurd h (by simp)

#print axioms irange_exact_partial
#print axioms range_exact_partial
#print axioms irange1_float_partial
#print axioms range1_float_partial
#print axioms irange_rounded
#print axioms irange_ends_partial
#print axioms range_rounded
#print axioms range_ends_partial
#print axioms range_stuck
#print axioms irange_stuck
#print axioms range_nan
#print axioms irange_nan
#print axioms mixed_undefined
#print axioms mixed_empty
#print axioms irange_drifts

end Libube.FloatRange

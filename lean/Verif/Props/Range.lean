import Verif.Spec.Range
import Mathlib.Tactic.Ring
import Mathlib.Tactic.Linarith
import Mathlib.Tactic.NormNum

/-! # Properties of ranges (C67) -/

namespace Libube.Range

open RangeSpec

theorem holds_pushed (xs : List Num) : Holds (pushed xs) xs := by
  match xs with
  | [] => rfl
  | [_] => rfl
  | _ :: _ :: _ => rfl

theorem inRange_char {v : Int} : inRange .char v = true ↔ -128 ≤ v ∧ v < 128 := by
  unfold inRange
  rw [Bool.and_eq_true, decide_eq_true_iff, decide_eq_true_iff]
  norm_num [Ty.bits]
theorem inRange_int {v : Int} : inRange .int v = true ↔ -2147483648 ≤ v ∧ v < 2147483648 := by
  unfold inRange
  rw [Bool.and_eq_true, decide_eq_true_iff, decide_eq_true_iff]
  norm_num [Ty.bits]
theorem inRange_long {v : Int} : inRange .long v = true ↔ -9223372036854775808 ≤ v ∧ v < 9223372036854775808 := by
  unfold inRange
  rw [Bool.and_eq_true, decide_eq_true_iff, decide_eq_true_iff]
  norm_num [Ty.bits]

theorem arith_ok {t : Ty} {v : Int} (h : inRange t v = true) : arith t v = .ok ⟨t, v⟩ := by
  cases t with
  | char =>
    unfold arith
    rw [inRange_char] at h
    rw [Int.bmod_eq_of_le (by omega) (by omega)]
  | int => exact if_pos h
  | long => exact if_pos h

theorem arith_bad {t : Ty} {v : Int} (h : inRange t v = false) (ht : t ≠ .char) : arith t v = .ub .overflow := by
  cases t with
  | char => exact absurd rfl ht
  | int => exact if_neg (by rw [h]; simp)
  | long => exact if_neg (by rw [h]; simp)

theorem cast_ok {t : Ty} {x : Num} (h : inRange t x.v = true) : cast t x = x.v := by
  unfold cast
  cases t with
  | char => rw [inRange_char] at h; exact Int.bmod_eq_of_le (by simp only [Ty.bits]; omega) (by simp only [Ty.bits]; omega)
  | int => rw [inRange_int] at h; exact Int.bmod_eq_of_le (by simp only [Ty.bits]; omega) (by simp only [Ty.bits]; omega)
  | long => rw [inRange_long] at h; exact Int.bmod_eq_of_le (by simp only [Ty.bits]; omega) (by simp only [Ty.bits]; omega)

theorem arith_inRange {t : Ty} {v : Int} {x : Num} (h : arith t v = .ok x) : x.ty = t ∧ inRange t x.v = true := by
  cases t with
  | char =>
    obtain rfl := Outcome.ok.inj h
    refine ⟨rfl, ?_⟩
    have h1 := Int.le_bmod (x := v) (m := 2 ^ 8) (by decide)
    have h2 := Int.bmod_lt (x := v) (m := 2 ^ 8) (by decide)
    rw [inRange_char]
    simp only []
    omega
  | int =>
    unfold arith at h
    simp only [] at h
    by_cases e : inRange .int v = true
    · rw [if_pos e] at h; obtain rfl := Outcome.ok.inj h; exact ⟨rfl, e⟩
    · rw [if_neg e] at h; cases h
  | long =>
    unfold arith at h
    simp only [] at h
    by_cases e : inRange .long v = true
    · rw [if_pos e] at h; obtain rfl := Outcome.ok.inj h; exact ⟨rfl, e⟩
    · rw [if_neg e] at h; cases h

theorem add_cases (a b : Num) : (∃ x, add a b = .ok x ∧ x.ty = a.ty ∧ inRange a.ty x.v = true) ∨ add a b = .ub .overflow := by
  unfold add
  by_cases h : inRange a.ty (a.v + cast a.ty b) = true
  · exact .inl ⟨_, arith_ok h, rfl, h⟩
  · by_cases ht : a.ty = .char
    · rw [ht]
      exact .inl ⟨_, rfl, (arith_inRange (t := .char) rfl)⟩
    · exact .inr (arith_bad (by simpa using h) ht)

theorem inRange_mono {t : Ty} {a b c : Int} (h1 : inRange t a = true) (h2 : inRange t c = true) (hab : a ≤ b) (hbc : b ≤ c) : inRange t b = true := by
  simp only [inRange, Bool.and_eq_true, decide_eq_true_eq] at *
  omega

theorem loop_eq {cond : Num → Bool} {step : Num} {t : Ty} {lo : Int} {n : Nat}
    (hs : inRange t step.v = true) (hr : ∀ i : Nat, i ≤ n → inRange t (lo + i * step.v) = true)
    (hc : ∀ i : Nat, i < n → cond ⟨t, lo + i * step.v⟩ = true) (hn : cond ⟨t, lo + n * step.v⟩ = false) :
    ∀ (k i fuel : Nat) (r : List Num), i + k = n → k ≤ fuel → r = progression t lo step.v i →
      loop cond step fuel ⟨t, lo + i * step.v⟩ r = .ok (progression t lo step.v n)
  | 0, i, fuel, r, hk, hf, e => by
    obtain rfl : i = n := by omega
    cases fuel <;> rw [loop, if_neg (by rw [hn]; simp), e]
  | k + 1, i, fuel, r, hk, hf, e => by
    obtain ⟨m, rfl⟩ : ∃ m, fuel = m + 1 := ⟨fuel - 1, by omega⟩
    have h2 := hr (i + 1) (by omega)
    rw [loop, if_pos (hc i (by omega))]
    have : add ⟨t, lo + i * step.v⟩ step = .ok ⟨t, lo + ((i + 1 : Nat) : Int) * step.v⟩ := by
      unfold add
      simp only []
      rw [cast_ok hs, show lo + (i : Int) * step.v + step.v = lo + ((i + 1 : Nat) : Int) * step.v by push_cast; ring, arith_ok h2]
    rw [this]
    simp only [Outcome.bind_ok]
    refine loop_eq hs hr hc hn k (i + 1) m _ (by omega) (by omega) ?_
    rw [e]
    unfold progression
    rw [List.range_succ, List.map_append]
    rfl

theorem loop_ub {cond : Num → Bool} {step : Num} (P : Num → Prop) (hP : ∀ x y, P x → add x step = .ok y → P y) (hc : ∀ x, P x → cond x = true) :
    ∀ (fuel : Nat) (lo : Num) (r : List Num), P lo → loop cond step fuel lo r = .ub .outOfBounds ∨ loop cond step fuel lo r = .ub .overflow
  | 0, lo, r, h => by rw [loop, if_pos (hc lo h)]; exact .inl rfl
  | n + 1, lo, r, h => by
    rw [loop, if_pos (hc lo h)]
    rcases add_cases lo step with ⟨x, e, -, -⟩ | e
    · rw [e]
      exact loop_ub P hP hc n x _ (hP _ _ h e)
    · rw [e]; exact .inr rfl

theorem exists_count {lo hi step : Int} (hs : 0 < step) : ∃ n : Nat, ∀ i : Nat, i < n ↔ lo + i * step < hi := by
  by_cases h : lo < hi
  · refine ⟨((hi - lo + step - 1) / step).toNat, fun i => ?_⟩
    have h0 : 0 ≤ (hi - lo + step - 1) / step := Int.ediv_nonneg (by omega) (by omega)
    constructor
    · intro hi'
      have h1 : (i : Int) + 1 ≤ (hi - lo + step - 1) / step := by omega
      have h2 := (Int.le_ediv_iff_mul_le hs).mp h1
      have : ((i : Int) + 1) * step = i * step + step := by ring
      omega
    · intro hi'
      have h1 : (i : Int) + 1 ≤ (hi - lo + step - 1) / step := by
        rw [Int.le_ediv_iff_mul_le hs]
        have : ((i : Int) + 1) * step = i * step + step := by ring
        omega
      omega
  · refine ⟨0, fun i => ⟨fun h => by omega, fun h' => ?_⟩⟩
    have : 0 ≤ (i : Int) * step := Int.mul_nonneg (by omega) (by omega)
    omega

/-- C67 for `irange`: with bounds and step of one type, the step positive, the first number not
    below `hi` still in the type and at most 2^30 elements, the result is the progression below `hi`.
    Missing for the full claim: mixed types and a number beyond the type, for both of which it is
    false (`irange_mixed_undefined`, `range_max_undefined`); floating point is C164. -/
theorem irange_partial (t : Ty) (lo hi : Int) (step : Num) (hl : inRange t lo = true) (hh : inRange t (hi + step.v - 1) = true)
    (hst : inRange t step.v = true) (hs : 0 < step.v) (hn : hi - lo ≤ limit t * step.v) :
    ∃ r n, irange ⟨t, lo⟩ ⟨t, hi⟩ step = .ok r ∧ Holds r (progression t lo step.v n) ∧ ∀ i : Nat, i < n ↔ lo + i * step.v < hi := by
  obtain ⟨n, hcount⟩ := exists_count (lo := lo) (hi := hi) hs
  refine ⟨pushed (progression t lo step.v n), n, ?_, holds_pushed _, hcount⟩
  have hcond : ∀ v : Int, lt ⟨t, v⟩ ⟨t, hi⟩ = decide (v < hi) := fun v => by simp [lt]
  have hstep : ∀ a b : Nat, a ≤ b → lo + a * step.v ≤ lo + b * step.v := by
    intro a b hab
    have : (a : Int) * step.v ≤ b * step.v := Int.mul_le_mul_of_nonneg_right (by omega) (by omega)
    omega
  have hend : n = 0 ∨ lo + n * step.v ≤ hi + step.v - 1 := by
    rcases Nat.eq_zero_or_pos n with e | e
    · exact .inl e
    · right
      have h1 := (hcount (n - 1)).mp (by omega)
      have h2 : ((n - 1 : Nat) : Int) * step.v + step.v = n * step.v := by
        rw [show (n : Int) = ((n - 1 : Nat) : Int) + 1 by omega]; ring
      omega
  have key := loop_eq (cond := fun x => lt x ⟨t, hi⟩) (step := step) (t := t) (lo := lo) (n := n) hst
    (by
      intro i hi'
      rcases hend with e | e
      · obtain rfl : i = 0 := by omega
        simpa using hl
      · have h1 := hstep 0 i (by omega)
        have h2 := hstep i n hi'
        refine inRange_mono hl hh ?_ (by omega)
        simpa using h1)
    (by intro i hi'; rw [hcond]; exact decide_eq_true ((hcount i).mp hi'))
    (by rw [hcond]; exact decide_eq_false (fun h => absurd ((hcount n).mpr h) (by omega)))
    n 0 (limit t) [] (by omega)
    (by
      rcases Nat.eq_zero_or_pos n with e | e
      · omega
      · have h1 := (hcount (n - 1)).mp (by omega)
        have h2 : ((n - 1 : Nat) : Int) * step.v < limit t * step.v := by omega
        have h3 := lt_of_mul_lt_mul_right h2 (by omega)
        omega)
    rfl
  unfold irange
  simp only [Nat.cast_zero, zero_mul, add_zero] at key
  rw [key]
  rfl

example : irange ⟨.int, 3⟩ ⟨.int, 10⟩ ⟨.int, 3⟩ = .ok (.array [⟨.int, 3⟩, ⟨.int, 6⟩, ⟨.int, 9⟩]) := by
  have := irange_partial .int 3 10 ⟨.int, 3⟩ (by decide) (by decide) (by decide) (by decide) (by decide)
  obtain ⟨r, n, e, h1, h2⟩ := this
  have hn : n = 3 := by
    have a := (h2 2).mpr (by decide)
    have b : ¬ 3 < n := fun h => absurd ((h2 3).mp h) (by decide)
    omega
  subst hn
  rw [e]
  have h1 : r = .array _ := h1
  rw [h1]; rfl

/-- C67 for `range`, which includes `hi`.  Missing: as for `irange_partial`. -/
theorem range_partial (t : Ty) (lo hi : Int) (step : Num) (hl : inRange t lo = true) (hh : inRange t (hi + step.v) = true)
    (hst : inRange t step.v = true) (hs : 0 < step.v) (hn : hi + 1 - lo ≤ limit t * step.v) :
    ∃ r n, range ⟨t, lo⟩ ⟨t, hi⟩ step = .ok r ∧ Holds r (progression t lo step.v n) ∧ ∀ i : Nat, i < n ↔ lo + i * step.v ≤ hi := by
  obtain ⟨r, n, e, h1, h2⟩ := irange_partial t lo (hi + 1) step hl
    (by rw [show hi + 1 + step.v - 1 = hi + step.v by ring]; exact hh) hst hs hn
  refine ⟨r, n, ?_, h1, fun i => (h2 i).trans Int.lt_add_one_iff⟩
  have key : ∀ (fuel : Nat) (x : Num) (acc : List Num), x.ty = t →
      loop (fun x => !lt ⟨t, hi⟩ x) step fuel x acc = loop (fun x => lt x ⟨t, hi + 1⟩) step fuel x acc := by
    intro fuel
    have hc : ∀ x : Num, x.ty = t → (!lt ⟨t, hi⟩ x) = lt x ⟨t, hi + 1⟩ := by
      intro x hx
      unfold lt
      simp only [hx, if_true]
      by_cases e : hi < x.v
      · rw [decide_eq_true e, decide_eq_false (by omega)]; rfl
      · rw [decide_eq_false e, decide_eq_true (by omega)]; rfl
    induction fuel with
    | zero => intro x acc hx; rw [loop, loop, hc x hx]
    | succ k ih =>
      intro x acc hx
      rw [loop, loop, hc x hx]
      rcases add_cases x step with ⟨y, e, hy, -⟩ | e
      · rw [e]; simp only [Outcome.bind_ok]; rw [ih y _ (by rw [hy, hx])]
      · rw [e]; rfl
  unfold range
  unfold irange at e
  rw [key _ _ _ rfl]
  exact e

/-- C67 for the forms with one argument: `irange(hi)` counts from 0 below `hi`. -/
theorem irange1_partial (t : Ty) (hi : Int) (h : inRange t hi = true) (hn : hi ≤ limit t) :
    ∃ r, irange1 ⟨t, hi⟩ = .ok r ∧ Holds r (progression t 0 1 hi.toNat) := by
  have hz : inRange t 0 = true := by cases t <;> decide
  have h1 : inRange t 1 = true := by cases t <;> decide
  obtain ⟨r, n, e, he, hc⟩ := irange_partial t 0 hi ⟨.int, 1⟩ hz (by simpa using h) h1 (by decide) (by simpa using hn)
  refine ⟨r, ?_, ?_⟩
  · unfold irange1 sub
    simp only []
    rw [cast_ok h, sub_self, arith_ok hz]
    exact e
  · suffices hi.toNat = n by rw [this]; exact he
    simp only [zero_add, mul_one] at hc
    have a := hc n
    rcases Nat.eq_zero_or_pos n with q | q
    · omega
    · have b := (hc (n - 1)).mp (by omega)
      omega

/-- `range(hi)` counts from 1 to `hi`. -/
theorem range1_partial (t : Ty) (hi : Int) (h : inRange t hi = true) (hh : inRange t (hi + 1) = true) (hn : hi ≤ limit t) :
    ∃ r, range1 ⟨t, hi⟩ = .ok r ∧ Holds r (progression t 1 1 hi.toNat) := by
  have hz : inRange t 0 = true := by cases t <;> decide
  have h1 : inRange t 1 = true := by cases t <;> decide
  obtain ⟨r, n, e, he, hc⟩ := range_partial t 1 hi ⟨.int, 1⟩ h1 hh h1 (by decide) (by simpa using hn)
  refine ⟨r, ?_, ?_⟩
  · unfold range1 sub add
    simp only []
    rw [cast_ok h, sub_self, arith_ok hz]
    simp only [Outcome.bind_ok]
    rw [cast_ok (x := ⟨.int, 1⟩) h1, zero_add, arith_ok h1]
    exact e
  · suffices hi.toNat = n by rw [this]; exact he
    simp only [mul_one] at hc
    have a := hc n
    rcases Nat.eq_zero_or_pos n with q | q
    · omega
    · have b := (hc (n - 1)).mp (by omega)
      omega

example : inRange .int 4 = true ∧ inRange .int 5 = true ∧ (4 : Int) ≤ limit .int := by decide

/-- C67 fails at the top of a type: `range` up to the largest value never stops, until the
    arithmetic overflows or memory beyond the array is written. -/
theorem range_max_undefined (t : Ty) (lo : Int) (step : Num) (hl : inRange t lo = true) :
    range ⟨t, lo⟩ ⟨t, maxOf t⟩ step = .ub .outOfBounds ∨ range ⟨t, lo⟩ ⟨t, maxOf t⟩ step = .ub .overflow := by
  have h := loop_ub (cond := fun x => !lt ⟨t, maxOf t⟩ x) (step := step) (fun x => x.ty = t ∧ inRange t x.v = true)
    (by
      rintro x y ⟨hx, -⟩ e
      rcases add_cases x step with ⟨z, e', h1, h2⟩ | e'
      · rw [e'] at e
        obtain rfl := Outcome.ok.inj e
        rw [hx] at h1 h2
        exact ⟨h1, h2⟩
      · rw [e'] at e; cases e)
    (by
      rintro x ⟨hx, hr⟩
      unfold lt
      simp only [hx, if_true]
      simp only [inRange, Bool.and_eq_true, decide_eq_true_eq] at hr
      rw [decide_eq_false (by unfold maxOf; omega)]; rfl)
    (limit t) ⟨t, lo⟩ [] ⟨rfl, hl⟩
  unfold range
  simp only []
  rcases h with h | h
  · left; rw [h]; rfl
  · right; rw [h]; rfl

example : inRange .char 1 = true ∧ maxOf .char = 127 := by decide

/-- C67 fails for mixed types: counting up to a number of a larger type never stops. -/
theorem irange_mixed_undefined (t u : Ty) (lo hi : Int) (step : Num) (htu : t.code < u.code) :
    irange ⟨t, lo⟩ ⟨u, hi⟩ step = .ub .outOfBounds ∨ irange ⟨t, lo⟩ ⟨u, hi⟩ step = .ub .overflow := by
  have hne : t ≠ u := by rintro rfl; omega
  have h := loop_ub (cond := fun x => lt x ⟨u, hi⟩) (step := step) (fun x => x.ty = t)
    (by
      rintro x y hx e
      rcases add_cases x step with ⟨z, e', h1, h2⟩ | e'
      · rw [e'] at e
        obtain rfl := Outcome.ok.inj e
        rw [h1, hx]
      · rw [e'] at e; cases e)
    (by
      rintro x hx
      unfold lt
      simp only [hx]
      rw [if_neg hne, decide_eq_true htu])
    (limit t) ⟨t, lo⟩ [] rfl
  unfold irange
  simp only []
  rcases h with h | h
  · left; rw [h]; rfl
  · right; rw [h]; rfl

example : (Ty.int).code < (Ty.long).code := by decide

/-- And counting up to a number of a smaller type gives nothing. -/
theorem irange_mixed_empty (t u : Ty) (lo hi : Int) (step : Num) (htu : u.code < t.code) :
    irange ⟨t, lo⟩ ⟨u, hi⟩ step = .ok .nil := by
  have hne : t ≠ u := by rintro rfl; omega
  have hc : lt ⟨t, lo⟩ ⟨u, hi⟩ = false := by
    unfold lt
    simp only []
    rw [if_neg hne, decide_eq_false (by omega)]
  unfold irange
  obtain ⟨m, hm⟩ : ∃ m, limit t = m + 1 := by cases t <;> exact ⟨_, rfl⟩
  simp only []
  rw [hm, loop, if_neg (by rw [hc]; simp)]
  rfl

#print axioms irange_partial
#print axioms range_partial
#print axioms irange1_partial
#print axioms range1_partial
#print axioms range_max_undefined
#print axioms irange_mixed_undefined
#print axioms irange_mixed_empty

end Libube.Range

import Verif.Spec.FloatArith
import Verif.Props.FloatRange

/-! # C178: arithmetic on single floating point numbers; C176 for them -/

namespace Libube.FloatRange

open FloatRangeSpec

theorem short_shift {m n k : Nat} (h : Short m n) : Short m (n * 2 ^ k) := by
  obtain ⟨c, i, rfl, hc⟩ := h
  exact ⟨c, i + k, by rw [Nat.mul_assoc, ← Nat.pow_add], hc⟩

theorem short_unshift {m n k : Nat} (h : Short m (n * 2 ^ k)) : Short m n := by
  obtain ⟨c, i, e, hc⟩ := h
  have hk := Nat.two_pow_pos k
  rcases Nat.lt_or_ge i k with hi | hi
  · refine ⟨n, 0, by simp, ?_⟩
    have e2 : n * 2 ^ (k - i) = c := by
      have : n * 2 ^ (k - i) * 2 ^ i = c * 2 ^ i := by
        rw [Nat.mul_assoc, ← Nat.pow_add, Nat.sub_add_cancel hi.le, e]
      exact Nat.eq_of_mul_eq_mul_right (Nat.two_pow_pos i) this
    have : n ≤ n * 2 ^ (k - i) := Nat.le_mul_of_pos_right _ (Nat.two_pow_pos _)
    omega
  · refine ⟨c, i - k, ?_, hc⟩
    have : n * 2 ^ k = c * 2 ^ (i - k) * 2 ^ k := by
      rw [Nat.mul_assoc, ← Nat.pow_add, Nat.sub_add_cancel hi, e]
    exact Nat.eq_of_mul_eq_mul_right hk this

/-- `rdiv_short` for magnitudes in smaller units. -/
theorem rdiv_short_unit (m n k0 : Nat) :
    Short m (rdiv n (2 ^ max k0 (n.log2 - m)) * 2 ^ (max k0 (n.log2 - m) - k0)) ∧
    ∀ z, Short m z → ((rdiv n (2 ^ max k0 (n.log2 - m)) * 2 ^ (max k0 (n.log2 - m) - k0) * 2 ^ k0 : Nat) - n : Int).natAbs ≤
      ((z * 2 ^ k0 : Nat) - n : Int).natAbs := by
  rcases Nat.le_total k0 (n.log2 - m) with h | h
  · rw [Nat.max_eq_right h]
    have e : rdiv n (2 ^ (n.log2 - m)) * 2 ^ (n.log2 - m - k0) * 2 ^ k0 = rdiv n (2 ^ (n.log2 - m)) * 2 ^ (n.log2 - m) := by
      rw [Nat.mul_assoc, ← Nat.pow_add, Nat.sub_add_cancel h]
    obtain ⟨h1, h2⟩ := rdiv_short m n
    refine ⟨short_unshift (k := k0) (by rw [e]; exact h1), fun z hz => ?_⟩
    rw [e]
    exact h2 _ (short_shift hz)
  · rw [Nat.max_eq_left h, Nat.sub_self, Nat.pow_zero, Nat.mul_one]
    refine ⟨?_, fun z _ => rdiv_close (Nat.two_pow_pos k0) z⟩
    have hle : rdiv n (2 ^ k0) ≤ 2 ^ (m + 1) := by
      have : n / 2 ^ k0 < 2 ^ (m + 1) := by
        rw [Nat.div_lt_iff_lt_mul (Nat.two_pow_pos k0), ← Nat.pow_add]
        rcases Nat.eq_zero_or_pos n with rfl | hp
        · exact Nat.two_pow_pos _
        · exact (log2_bounds hp.ne').2.trans_le (Nat.pow_le_pow_right (by omega) (by omega))
      unfold rdiv
      split <;> omega
    rcases Nat.lt_or_ge (rdiv n (2 ^ k0)) (2 ^ (m + 1)) with h | h
    · exact ⟨_, 0, by simp, h⟩
    · exact ⟨1, m + 1, by omega, Nat.one_lt_two_pow (by omega)⟩

theorem rnd_natAbs (f : Fmt) (k0 : Nat) (x : Int) : (rnd f k0 x).natAbs = rndNat f k0 x.natAbs := by
  unfold rnd
  split
  · rw [Int.natAbs_neg, Int.natAbs_natCast]
  · rw [Int.natAbs_natCast]

theorem rnd_closest_unit {f : Fmt} {k0 : Nat} {x : Int} (h : (rnd f k0 x).natAbs ≠ 2 ^ f.top) :
    Finite f (rnd f k0 x) ∧ ∀ z, Finite f z → (rnd f k0 x * 2 ^ k0 - x).natAbs ≤ (z * 2 ^ k0 - x).natAbs := by
  obtain ⟨h1, h2⟩ := rdiv_short_unit f.frac x.natAbs k0
  have hn := rnd_natAbs f k0 x
  have hr : rndNat f k0 x.natAbs =
      rdiv x.natAbs (2 ^ max k0 (x.natAbs.log2 - f.frac)) * 2 ^ (max k0 (x.natAbs.log2 - f.frac) - k0) ∧ rndNat f k0 x.natAbs < 2 ^ f.top := by
    rw [hn] at h
    unfold rndNat at h ⊢
    simp only at h ⊢
    omega
  rw [← hr.1] at h1 h2
  refine ⟨(finite_iff f _).2 ⟨by rw [hn]; exact h1, by rw [hn]; exact hr.2⟩, fun z hz => ?_⟩
  have h3 := h2 z.natAbs ((finite_iff f z).1 hz).1
  have hp : (0 : Int) < 2 ^ k0 := by positivity
  simp only [Nat.cast_mul, Nat.cast_pow, Nat.cast_ofNat] at h3
  generalize hP : (2 : Int) ^ k0 = P at *
  have hz' : ((z.natAbs : Int) * P - x.natAbs).natAbs ≤ (z * P - x).natAbs := by
    have e1 : (z.natAbs : Int) * P = (z * P).natAbs := by
      rw [Int.natAbs_mul, Nat.cast_mul, Int.natAbs_of_nonneg hp.le]
    rw [e1]
    omega
  refine le_trans ?_ (h3.trans hz')
  unfold rnd
  split
  · have e : -(rndNat f k0 x.natAbs : Int) * P = -((rndNat f k0 x.natAbs : Int) * P) := by ring
    rw [e]
    omega
  · omega

/-- C178: a product of finite numbers that is not infinite is a number closest to the exact one. -/
theorem product_closest_partial (f : Fmt) (x y r : Int) (hx : Finite f x) (hy : Finite f y)
    (h : mulNum f (some x) (.flt f (some y)) = .flt f (some r)) (hr : r.natAbs ≠ inf f) : ClosestProduct f x y r := by
  have hc : castF f (.flt f (some y)) = some y := by cases f <;> rfl
  have hi : inf f = (2 ^ f.top : Nat) := by cases f <;> (unfold inf; push_cast; rfl)
  have h1 := finite_lt hx
  have h2 := finite_lt hy
  unfold mulNum at h
  rw [hc, mulF, if_neg (by omega)] at h
  obtain rfl : rnd f f.unit (x * y) = r := by simpa using h
  have := rnd_closest_unit (f := f) (k0 := f.unit) (x := x * y) (by rw [hi] at hr; exact_mod_cast hr)
  rw [← one_eq] at this
  exact this

theorem addF_finite {f : Fmt} {x y : Int} (hx : Finite f x) (hy : Finite f y) : addF f (some x) (some y) = some (rnd f 0 (x + y)) := by
  have h1 := finite_lt hx
  have h2 := finite_lt hy
  rw [addF, if_neg (by omega), if_neg (by omega)]

theorem castF_self (f : Fmt) (v : Option Int) : castF f (.flt f v) = v := by cases f <;> rfl

theorem inf_eq (f : Fmt) : inf f = (2 ^ f.top : Nat) := by cases f <;> (unfold inf; push_cast; rfl)

/-- C178: so is a sum of finite numbers that is not infinite. -/
theorem sum_closest_partial (f : Fmt) (x y r : Int) (hx : Finite f x) (hy : Finite f y)
    (h : add (.flt f (some x)) (.flt f (some y)) = .ok (.flt f (some r))) (hr : r.natAbs ≠ inf f) : Closest f (x + y) r := by
  rw [add, castF_self, addF_finite hx hy] at h
  obtain rfl : rnd f 0 (x + y) = r := by simpa using h
  exact rnd_closest (by rw [inf_eq] at hr; exact_mod_cast hr)

/-- C178: so is a difference. -/
theorem difference_closest_partial (f : Fmt) (x y r : Int) (hx : Finite f x) (hy : Finite f y)
    (h : sub (.flt f (some x)) (.flt f (some y)) = .ok (.flt f (some r))) (hr : r.natAbs ≠ inf f) : Closest f (x - y) r := by
  rw [sub, castF_self] at h
  have e : negF (some y) = some (-y) := rfl
  rw [e, addF_finite hx (finite_neg hy)] at h
  obtain rfl : rnd f 0 (x + -y) = r := by simpa using h
  rw [Int.sub_eq_add_neg]
  exact rnd_closest (by rw [inf_eq] at hr; exact_mod_cast hr)

/-- 1.5 and 3 * 2^-24 as float: the sum is rounded, the product is not. -/
example : Finite .float (3 * 2 ^ 148) ∧ Finite .float (3 * 2 ^ 125) ∧
    add (.flt .float (some (3 * 2 ^ 148))) (.flt .float (some (3 * 2 ^ 125))) = .ok (.flt .float (some (3 * 2 ^ 148 + 2 ^ 127))) ∧
    sub (.flt .float (some (3 * 2 ^ 148))) (.flt .float (some (3 * 2 ^ 125))) = .ok (.flt .float (some (3 * 2 ^ 148 - 2 ^ 127))) ∧
    mulNum .float (some (3 * 2 ^ 148)) (.flt .float (some (3 * 2 ^ 125))) = .flt .float (some (9 * 2 ^ 124)) := by
  refine ⟨⟨0x3FC00000, by decide +kernel, by decide +kernel⟩, ⟨0x34400000, by decide +kernel, by decide +kernel⟩, ?_⟩
  decide +kernel

theorem mulF_comm (f : Fmt) (a b : Option Int) : mulF f a b = mulF f b a := by
  match a, b with
  | none, none => rfl
  | none, some _ => rfl
  | some _, none => rfl
  | some x, some y =>
    unfold mulF
    simp only
    rw [Int.mul_comm y x]
    congr 1
    · exact propext or_comm
    · congr 1
      exact propext or_comm

theorem addF_comm {f : Fmt} (a b : Option Int) : addF f a b = addF f b a := by
  match a, b with
  | none, none => rfl
  | none, some _ => rfl
  | some _, none => rfl
  | some x, some y =>
    unfold addF
    simp only
    rw [Int.add_comm y x]
    split_ifs <;> first | rfl | (congr 1; omega) | (exfalso; omega)

/-- Sums and products of numbers of the same type do not depend on the order, for all that a var can hold. -/
theorem float_commutes (f : Fmt) (a b : Option Int) :
    add (.flt f a) (.flt f b) = add (.flt f b) (.flt f a) ∧ mulNum f a (.flt f b) = mulNum f b (.flt f a) := by
  rw [add, add, castF_self, castF_self, addF_comm, mulNum, mulNum, castF_self, castF_self, mulF_comm]
  exact ⟨rfl, rfl⟩

/-- C178 fails for numbers of different types: 1 + 2^-30 is 1 if the `float` is on the left. -/
theorem float_order_matters :
    add (.flt .float (some (2 ^ 149))) (.flt .double (some (2 ^ 1044))) = .ok (.flt .float (some (2 ^ 149))) ∧
    add (.flt .double (some (2 ^ 1044))) (.flt .float (some (2 ^ 149))) = .ok (.flt .double (some (2 ^ 1074 + 2 ^ 1044))) := by
  decide +kernel

theorem held_short {f : Fmt} {x : Int} (h : Held f (some x)) : Short f.frac x.natAbs ∧ x.natAbs ≤ 2 ^ f.top := by
  cases f <;> obtain ⟨b, h⟩ := h <;> exact value_short h

theorem rnd_unit_exact {f : Fmt} {k0 : Nat} {x : Int} (h : Finite f x) : rnd f k0 (x * 2 ^ k0) = x := by
  by_cases ht : (rnd f k0 (x * 2 ^ k0)).natAbs = 2 ^ f.top
  · exfalso
    obtain ⟨h1, h2⟩ := rdiv_short_unit f.frac (x * 2 ^ k0).natAbs k0
    have h3 := h2 x.natAbs ((finite_iff f x).1 h).1
    have e : (x * 2 ^ k0).natAbs = x.natAbs * 2 ^ k0 := by rw [Int.natAbs_mul, Int.natAbs_pow]; rfl
    rw [rnd_natAbs] at ht
    unfold rndNat at ht
    simp only at ht
    have hx := finite_lt h
    generalize rdiv (x * 2 ^ k0).natAbs (2 ^ max k0 ((x * 2 ^ k0).natAbs.log2 - f.frac)) *
      2 ^ (max k0 ((x * 2 ^ k0).natAbs.log2 - f.frac) - k0) = R at *
    rw [e] at h3
    have : R * 2 ^ k0 = x.natAbs * 2 ^ k0 := by omega
    have := Nat.eq_of_mul_eq_mul_right (Nat.two_pow_pos k0) this
    omega
  · have h2 := (rnd_closest_unit ht).2 x h
    have : rnd f k0 (x * 2 ^ k0) * 2 ^ k0 = x * 2 ^ k0 := by omega
    exact mul_right_cancel₀ (by positivity) this

/-- C176 for floating point numbers: `-x` is the negative of all that a var can hold, and so is x again after two. -/
theorem negate_float (f : Fmt) (v : Option Int) (h : Held f v) :
    negateNum f v = .flt f (v.map fun x => -x) ∧ (∀ w, negateNum f v = .flt f w → negateNum f w = .flt f v) := by
  have hm : castF f (.int ⟨.int, -1⟩) = some (-1 * 2 ^ f.unit) := by
    rw [castF]
    exact congrArg some (rnd_grid (f := f) (k := f.unit) ⟨-1, rfl, Nat.one_le_two_pow⟩ (by
      rw [Int.natAbs_mul, Int.natAbs_pow]
      cases f <;> exact Nat.le_of_ble_eq_true (by decide +kernel)))
  have hlt : (-1 * 2 ^ f.unit : Int).natAbs ≠ 2 ^ f.top ∧ (-1 * 2 ^ f.unit : Int) ≠ 0 := by
    constructor
    · rw [Int.natAbs_mul, Int.natAbs_pow]
      cases f <;> decide +kernel
    · have : (0 : Int) < 2 ^ f.unit := by positivity
      omega
  have key : ∀ x : Int, Short f.frac x.natAbs → x.natAbs ≤ 2 ^ f.top → negateNum f (some x) = .flt f (some (-x)) := by
    intro x hs ht
    unfold negateNum mulNum
    rw [hm, mulF]
    by_cases he : x.natAbs = 2 ^ f.top
    · have hx0 : x ≠ 0 := by rintro rfl; have := Nat.two_pow_pos f.top; simp at he; omega
      rw [if_pos (.inl he), if_neg (by rintro (h | h); exacts [hx0 h, hlt.2 h])]
      have hp : (0 : Int) < 2 ^ f.unit := by positivity
      have hs : (x * (-1 * 2 ^ f.unit)).sign = -x.sign := by
        rw [Int.sign_mul, Int.sign_mul, Int.sign_eq_one_of_pos hp]; simp
      rw [hs]
      have : x = x.sign * 2 ^ f.top := by
        have h1 := Int.sign_mul_natAbs x
        rw [he] at h1
        push_cast at h1
        exact h1.symm
      congr 2
      rw [neg_mul, ← this]
    · rw [if_neg (by rintro (h | h); exacts [he h, hlt.1 h])]
      have hf : Finite f (-x) := finite_neg ((finite_iff f x).2 ⟨hs, by omega⟩)
      rw [show x * (-1 * 2 ^ f.unit) = -x * 2 ^ f.unit by ring, rnd_unit_exact hf]
  cases v with
  | none =>
    have : negateNum f none = .flt f none := rfl
    refine ⟨this, fun w hw => ?_⟩
    rw [this] at hw
    cases hw
    exact this
  | some x =>
    obtain ⟨h1, h2⟩ := held_short h
    refine ⟨key x h1 h2, fun w hw => ?_⟩
    rw [key x h1 h2] at hw
    cases hw
    rw [key (-x) (by rw [Int.natAbs_neg]; exact h1) (by rw [Int.natAbs_neg]; exact h2), Int.neg_neg]

-- 1.5 and minus infinity
example : Held .float (some (3 * 2 ^ 148)) ∧ Held .double (some (-(2 ^ 2098))) ∧ Held .double none :=
  ⟨⟨0x3FC00000, by decide +kernel⟩, ⟨0xFFF0000000000000, by decide +kernel⟩, ⟨0x7FF8000000000000, by decide +kernel⟩⟩

theorem rdiv_short_quot (m n d : Nat) (hd : 0 < d) :
    Short m (rdiv n (d * 2 ^ ((n / d).log2 - m)) * 2 ^ ((n / d).log2 - m)) ∧
    ∀ z, Short m z → ((rdiv n (d * 2 ^ ((n / d).log2 - m)) * 2 ^ ((n / d).log2 - m) * d : Nat) - n : Int).natAbs ≤ ((z * d : Nat) - n : Int).natAbs := by
  have hq : n / d * d ≤ n := Nat.div_mul_le_self n d
  have hq' : n < (n / d + 1) * d := Nat.lt_mul_of_div_lt (Nat.lt_succ_self _) hd
  generalize hk : (n / d).log2 - m = k
  have hp := Nat.two_pow_pos k
  have hdk : 0 < d * 2 ^ k := Nat.mul_pos hd hp
  have hlt : n / d < 2 ^ (m + 1) * 2 ^ k := by
    rw [← Nat.pow_add]
    rcases Nat.eq_zero_or_pos (n / d) with h0 | h0
    · rw [h0]; exact Nat.two_pow_pos _
    · exact (log2_bounds h0.ne').2.trans_le (Nat.pow_le_pow_right (by omega) (by omega))
  have assoc : ∀ a : Nat, a * 2 ^ k * d = a * (d * 2 ^ k) := fun a => by ring
  constructor
  · have hle : rdiv n (d * 2 ^ k) ≤ 2 ^ (m + 1) := by
      have : n / (d * 2 ^ k) < 2 ^ (m + 1) := by
        rw [← Nat.div_div_eq_div_mul, Nat.div_lt_iff_lt_mul hp]
        exact hlt
      unfold rdiv
      split <;> omega
    rcases Nat.lt_or_ge (rdiv n (d * 2 ^ k)) (2 ^ (m + 1)) with h | h
    · exact ⟨_, _, rfl, h⟩
    · refine ⟨1, m + 1 + k, ?_, Nat.one_lt_two_pow (by omega)⟩
      rw [show rdiv n (d * 2 ^ k) = 2 ^ (m + 1) by omega, ← Nat.pow_add, Nat.one_mul]
  · rintro z ⟨c, i, rfl, hc⟩
    rw [assoc]
    rcases Nat.lt_or_ge i k with hi | hi
    · have hz : c * 2 ^ i ≤ 2 ^ m * 2 ^ k := by
        calc c * 2 ^ i ≤ 2 ^ (m + 1) * 2 ^ i := Nat.mul_le_mul_right _ hc.le
          _ = 2 ^ (m + 1 + i) := (Nat.pow_add ..).symm
          _ ≤ 2 ^ (m + k) := Nat.pow_le_pow_right (by omega) (by omega)
          _ = _ := Nat.pow_add ..
      have hn : 2 ^ m * 2 ^ k ≤ n / d := by
        rw [← Nat.pow_add]
        have h0 : n / d ≠ 0 := by intro h0; rw [h0] at hk; simp at hk; omega
        exact (Nat.pow_le_pow_right (by omega) (by omega)).trans (log2_bounds h0).1
      have h1 := rdiv_close (n := n) hdk (2 ^ m)
      have h2 : c * 2 ^ i * d ≤ 2 ^ m * 2 ^ k * d := Nat.mul_le_mul_right _ hz
      have h3 : 2 ^ m * 2 ^ k * d ≤ n / d * d := Nat.mul_le_mul_right _ hn
      rw [assoc] at h2 h3
      omega
    · have hz : c * 2 ^ i * d = c * 2 ^ (i - k) * (d * 2 ^ k) := by
        rw [← assoc, Nat.mul_assoc c (2 ^ (i - k)), ← Nat.pow_add, Nat.sub_add_cancel hi]
      rw [hz]
      exact rdiv_close hdk _

/-- C178: a quotient of finite numbers that is not infinite is a number closest to the exact one. -/
theorem quotient_closest_partial (f : Fmt) (x y r : Int) (hx : Finite f x) (hy : Finite f y) (hy0 : y ≠ 0)
    (h : divNum f (some x) (.flt f (some y)) = .ok (.flt f (some r))) (hr : r.natAbs ≠ inf f) : ClosestQuotient f x y r := by
  have h1 := finite_lt hx
  have h2 := finite_lt hy
  unfold divNum at h
  rw [castF_self, divF, if_neg hy0] at h
  rw [if_neg (by omega), if_neg (by omega)] at h
  simp only [Outcome.bind_ok, Outcome.ok.injEq, Num.flt.injEq, Option.some.injEq, true_and] at h
  have hd : 0 < y.natAbs := Int.natAbs_pos.2 hy0
  rw [inf_eq] at hr
  by_cases hx0 : x = 0
  · subst hx0
    simp only [Int.zero_mul, Int.sign_zero] at h
    subst h
    exact ⟨hx, fun z _ => by simp⟩
  obtain ⟨s1, s2⟩ := rdiv_short_quot f.frac (x.natAbs * 2 ^ f.unit) y.natAbs hd
  have hs : (x * y).sign.natAbs = 1 := Int.natAbs_sign_of_ne_zero (mul_ne_zero hx0 hy0)
  have hrn : r.natAbs = rndQuot f (x.natAbs * 2 ^ f.unit) y.natAbs := by
    rw [← h, Int.natAbs_mul, hs, Int.natAbs_natCast, Nat.one_mul]
  have hR : rndQuot f (x.natAbs * 2 ^ f.unit) y.natAbs =
      rdiv (x.natAbs * 2 ^ f.unit) (y.natAbs * 2 ^ ((x.natAbs * 2 ^ f.unit / y.natAbs).log2 - f.frac)) *
        2 ^ ((x.natAbs * 2 ^ f.unit / y.natAbs).log2 - f.frac) ∧ rndQuot f (x.natAbs * 2 ^ f.unit) y.natAbs < 2 ^ f.top := by
    have hne : rndQuot f (x.natAbs * 2 ^ f.unit) y.natAbs ≠ 2 ^ f.top := by rw [← hrn]; exact_mod_cast hr
    unfold rndQuot at hne ⊢
    simp only at hne ⊢
    exact ⟨Nat.min_eq_left (by omega), by omega⟩
  rw [← hR.1] at s1 s2
  refine ⟨(finite_iff f r).2 ⟨by rw [hrn]; exact s1, by rw [hrn]; exact hR.2⟩, fun z hz => ?_⟩
  have h3 := s2 z.natAbs ((finite_iff f z).1 hz).1
  generalize rndQuot f (x.natAbs * 2 ^ f.unit) y.natAbs = R at *
  rw [one_eq]
  have hp : (0 : Int) < 2 ^ f.unit := by positivity
  have ex : ((x.natAbs * 2 ^ f.unit : Nat) : Int) = ((x * 2 ^ f.unit).natAbs : Nat) := by
    rw [Int.natAbs_mul, Int.natAbs_pow]; rfl
  have ez : ((z.natAbs * y.natAbs : Nat) : Int) = ((z * y).natAbs : Nat) := by rw [Int.natAbs_mul]
  rw [ex, ez] at h3
  have hz' : (((z * y).natAbs : Int) - (x * 2 ^ f.unit).natAbs).natAbs ≤ (z * y - x * 2 ^ f.unit).natAbs := by omega
  refine le_trans (le_of_eq ?_) (h3.trans hz')
  have er : r * y = x.sign * ((R * y.natAbs : Nat) : Int) := by
    rw [← h, Int.sign_mul, Nat.cast_mul]
    have := Int.sign_mul_self_eq_natAbs y
    calc x.sign * y.sign * R * y = x.sign * (R * (y.sign * y)) := by ring
      _ = _ := by rw [this]
  have ex2 : x * 2 ^ f.unit = x.sign * ((x * 2 ^ f.unit).natAbs : Nat) := by
    have := Int.sign_mul_natAbs (x * 2 ^ f.unit)
    rw [Int.sign_mul, Int.sign_eq_one_of_pos hp, Int.mul_one] at this
    exact this.symm
  have : r * y - x * 2 ^ f.unit = x.sign * (((R * y.natAbs : Nat) : Int) - ((x * 2 ^ f.unit).natAbs : Nat)) := by
    rw [mul_sub, ← er, ← ex2]
  rw [this, Int.natAbs_mul, Int.natAbs_sign_of_ne_zero hx0, Nat.one_mul]

example : Finite .float (2 ^ 149) ∧ Finite .float (3 * 2 ^ 149) ∧
    divNum .float (some (2 ^ 149)) (.flt .float (some (3 * 2 ^ 149))) = .ok (.flt .float (some (11184811 * 2 ^ 124))) :=
  ⟨⟨0x3F800000, by decide +kernel, by decide +kernel⟩, ⟨0x40400000, by decide +kernel, by decide +kernel⟩, by decide +kernel⟩

/-- The sum is not associative: 2^24 + (1 + 1) and (2^24 + 1) + 1 as float. -/
theorem sum_not_associative : ∃ a b : Num,
    (add a b >>= fun c => add c b) = .ok a ∧ (add b b >>= fun c => add a c) ≠ .ok a :=
  ⟨.flt .float (some (2 ^ 173)), .flt .float (some (2 ^ 149)), by decide +kernel, by decide +kernel⟩

end Libube.FloatRange

#print axioms Libube.FloatRange.product_closest_partial
#print axioms Libube.FloatRange.sum_closest_partial
#print axioms Libube.FloatRange.difference_closest_partial
#print axioms Libube.FloatRange.float_commutes
#print axioms Libube.FloatRange.float_order_matters
#print axioms Libube.FloatRange.quotient_closest_partial
#print axioms Libube.FloatRange.negate_float
#print axioms Libube.FloatRange.sum_not_associative

import Mathlib.Data.Fintype.Pigeonhole
import Mathlib.Logic.Function.Iterate
import Mathlib.Tactic.Ring
import Verif.Model.Transpose
import Verif.Spec.Transpose
import Verif.Lemmas.View

namespace Libube.Transpose

open View TransposeSpec

/-! ### Memory -/

theorem load_nat {data : List α} {b k : Nat} {x : α} (h : data[b + k]? = some x) :
    load data ((b : Int) + (k : Nat)) = .ok x := by
  unfold load
  rw [if_neg (by omega)]
  have : ((b : Int) + (k : Nat)).toNat = b + k := by omega
  rw [this, h]

theorem store_nat {data : List α} {b k : Nat} (x : α) (h : b + k < data.length) :
    store data ((b : Int) + (k : Nat)) x = .ok (data.set (b + k) x) := by
  unfold store
  rw [if_pos (by omega)]
  have : ((b : Int) + (k : Nat)).toNat = b + k := by omega
  rw [this]

/-! ### The permutation -/

theorem div_of {r c C : Nat} (hc : c < C) : (r * C + c) / C = r := by
  rw [Nat.mul_comm, Nat.mul_add_div (by omega), Nat.div_eq_of_lt hc, Nat.add_zero]

theorem mod_of {r c C : Nat} (hc : c < C) : (r * C + c) % C = c := by
  rw [Nat.mul_comm, Nat.mul_add_mod, Nat.mod_eq_of_lt hc]

theorem lt_of {r c R C : Nat} (hr : r < R) (hc : c < C) : r * C + c < R * C := by
  have : (r + 1) * C ≤ R * C := Nat.mul_le_mul_right _ hr
  rw [Nat.add_mul, Nat.one_mul] at this
  omega

theorem split_of {k R C : Nat} (h : k < R * C) : k / C < R ∧ k % C < C ∧ k / C * C + k % C = k := by
  have hC : 0 < C := by
    rcases Nat.eq_zero_or_pos C with h0 | h0
    · subst h0; simp at h
    · exact h0
  refine ⟨Nat.div_lt_of_lt_mul (by rwa [Nat.mul_comm] at h), Nat.mod_lt _ hC, ?_⟩
  rw [Nat.mul_comm]; exact Nat.div_add_mod k C

theorem next_of {m n r c : Nat} (hc : c < n) : next m n (r * n + c) = c * m + r := by
  unfold next; rw [mod_of hc, div_of hc]

theorem next_lt {m n k : Nat} (h : k < m * n) : next m n k < m * n := by
  obtain ⟨h1, h2, h3⟩ := split_of h
  unfold next
  rw [Nat.mul_comm m n]
  exact lt_of h2 h1

theorem next_inj {m n a b : Nat} (ha : a < m * n) (hb : b < m * n) (h : next m n a = next m n b) : a = b := by
  obtain ⟨a1, a2, a3⟩ := split_of ha
  obtain ⟨b1, b2, b3⟩ := split_of hb
  unfold next at h
  have hm := congrArg (· % m) h
  have hd := congrArg (· / m) h
  simp only [mod_of a1, mod_of b1, div_of a1, div_of b1] at hm hd
  rw [← a3, ← b3, hm, hd]

theorem next_zero {m n : Nat} : next m n 0 = 0 := by unfold next; simp

section Cycle
variable {N : Nat} {f : Nat → Nat} (hf : ∀ k, k < N → f k < N)
  (hinj : ∀ a b, a < N → b < N → f a = f b → a = b)
include hf

theorem iter_lt {s : Nat} (hs : s < N) (i : Nat) : f^[i] s < N := by
  induction i with
  | zero => exact hs
  | succ i ih => rw [Function.iterate_succ_apply']; exact hf _ ih

include hinj

theorem iter_inj {a b : Nat} (ha : a < N) (hb : b < N) (i : Nat) (h : f^[i] a = f^[i] b) : a = b := by
  induction i with
  | zero => exact h
  | succ i ih =>
    rw [Function.iterate_succ_apply', Function.iterate_succ_apply'] at h
    exact ih (hinj _ _ (iter_lt hf ha i) (iter_lt hf hb i) h)

theorem period_exists {s : Nat} (hs : s < N) : ∃ p, 0 < p ∧ p ≤ N ∧ f^[p] s = s := by
  obtain ⟨i, j, hne, he⟩ := Fintype.exists_ne_map_eq_of_card_lt
    (fun i : Fin (N + 1) => (⟨f^[i] s, iter_lt hf hs i⟩ : Fin N)) (by simp)
  have he' : f^[i.1] s = f^[j.1] s := by simpa using he
  have key : ∀ i j : Nat, i < j → j ≤ N → f^[i] s = f^[j] s → ∃ p, 0 < p ∧ p ≤ N ∧ f^[p] s = s := by
    intro i j hij hj he
    refine ⟨j - i, by omega, by omega, ?_⟩
    have : f^[i] (f^[j - i] s) = f^[i] s := by
      rw [← Function.iterate_add_apply, show i + (j - i) = j by omega, he]
    exact iter_inj hf hinj (iter_lt hf hs _) hs i this
  have hi := i.2
  have hj := j.2
  rcases Nat.lt_or_ge i.1 j.1 with h | h
  · exact key i.1 j.1 h (by omega) he'
  · have : i.1 ≠ j.1 := fun h => hne (Fin.ext h)
    exact key j.1 i.1 (by omega) (by omega) he'.symm

/-- The length of the cycle of `s`. -/
structure IsPeriod (f : Nat → Nat) (s p : Nat) : Prop where
  pos : 0 < p
  back : f^[p] s = s
  first : ∀ i, 0 < i → i < p → f^[i] s ≠ s

theorem isPeriod_exists {s : Nat} (hs : s < N) : ∃ p, p ≤ N ∧ IsPeriod f s p := by
  classical
  have h : ∃ p, 0 < p ∧ f^[p] s = s := by
    obtain ⟨p, h1, h2, h3⟩ := period_exists hf hinj hs; exact ⟨p, h1, h3⟩
  obtain ⟨q, q1, q2, q3⟩ := period_exists hf hinj hs
  refine ⟨Nat.find h, (Nat.find_min' h ⟨q1, q3⟩).trans q2, (Nat.find_spec h).1, (Nat.find_spec h).2, ?_⟩
  intro i hi hlt he
  exact Nat.find_min h hlt ⟨hi, he⟩

theorem IsPeriod.distinct {s p : Nat} (hs : s < N) (hp : IsPeriod f s p) {i j : Nat} (hij : i < j) (hj : j < p) :
    f^[i] s ≠ f^[j] s := by
  intro he
  refine hp.first (j - i) (by omega) (by omega) ?_
  have : f^[i] (f^[j - i] s) = f^[i] s := by
    rw [← Function.iterate_add_apply, show i + (j - i) = j by omega, he]
  exact iter_inj hf hinj (iter_lt hf hs _) hs i this

omit hf hinj in
theorem IsPeriod.mod {s p : Nat} (hp : IsPeriod f s p) (i : Nat) : ∃ j, j < p ∧ f^[i] s = f^[j] s := by
  have h := hp.pos
  refine ⟨i % p, Nat.mod_lt _ h, ?_⟩
  have e : f^[p * (i / p)] s = s := by
    rw [Function.iterate_mul]
    exact Function.iterate_fixed hp.back _
  conv_lhs => rw [← Nat.mod_add_div i p, Function.iterate_add_apply, e]

theorem preimage_in_cycle {s p q i : Nat} (hs : s < N) (hq : q < N) (hp : IsPeriod f s p) (h : f q = f^[i] s) :
    ∃ j, j < p ∧ q = f^[j] s := by
  have hpos := hp.pos
  have : f q = f (f^[i + (p - 1)] s) := by
    rw [← Function.iterate_succ_apply' f, show (i + (p - 1)).succ = i + p by omega,
      Function.iterate_add_apply, hp.back, h]
  have := hinj _ _ hq (iter_lt hf hs _) this
  obtain ⟨j, hj, he⟩ := hp.mod (i + (p - 1))
  exact ⟨j, hj, this.trans he⟩

theorem in_cycle_of_reaches {s p q i : Nat} (hs : s < N) (hq : q < N) (hp : IsPeriod f s p) (h : f^[i] q = s) :
    ∃ j, j < p ∧ q = f^[j] s := by
  induction i generalizing q with
  | zero => exact ⟨0, hp.pos, h⟩
  | succ i ih =>
    rw [Function.iterate_succ_apply] at h
    obtain ⟨j, hj, he⟩ := ih (hf _ hq) h
    exact preimage_in_cycle hf hinj hs hq hp he

omit hf hinj in
theorem IsPeriod.reach {s p j : Nat} (hp : IsPeriod f s p) (hj : j < p) : f^[p - j] (f^[j] s) = s := by
  rw [← Function.iterate_add_apply, show p - j + j = p by omega, hp.back]

end Cycle

/-! ### The two inner loops -/

theorem lookAhead_true {m n s p : Nat} (hp : IsPeriod (next m n) s p)
    (i : Nat) (hi : i < p) (fuel : Nat) (hfuel : p - i ≤ fuel)
    (h : ∃ j, i ≤ j ∧ j < p ∧ (next m n)^[j] s < s) :
    lookAhead m n s ((next m n)^[i] s) fuel = .ok true := by
  induction fuel generalizing i with
  | zero => omega
  | succ fuel ih =>
    rw [lookAhead]
    by_cases hlt : (next m n)^[i] s < s
    · rw [if_pos hlt]
    · rw [if_neg hlt]
      simp only []
      obtain ⟨j, h1, h2, h3⟩ := h
      have hij : i ≠ j := fun e => hlt (e ▸ h3)
      rw [← Function.iterate_succ_apply' (next m n)]
      rw [if_pos (hp.first _ (by omega) (by omega))]
      exact ih (i + 1) (by omega) (by omega) ⟨j, by omega, h2, h3⟩

theorem lookAhead_false {m n s p : Nat} (hp : IsPeriod (next m n) s p)
    (i : Nat) (hi : i < p) (fuel : Nat) (hfuel : p - i ≤ fuel)
    (h : ∀ j, i ≤ j → j < p → ¬(next m n)^[j] s < s) :
    lookAhead m n s ((next m n)^[i] s) fuel = .ok false := by
  induction fuel generalizing i with
  | zero => omega
  | succ fuel ih =>
    rw [lookAhead, if_neg (h i (le_refl _) hi)]
    simp only []
    rw [← Function.iterate_succ_apply' (next m n)]
    by_cases hlast : i + 1 = p
    · rw [if_neg (by rw [show i.succ = p by omega, hp.back]; simp)]
    · rw [if_pos (hp.first _ (by omega) (by omega))]
      exact ih (i + 1) (by omega) (by omega) (fun j h1 h2 => h j (by omega) h2)

theorem rotate_eq {m n s p : Nat} (hs : s < m * n) (hp : IsPeriod (next m n) s p) (b : Nat)
    (i : Nat) (hi : i < p) (fuel : Nat) (hfuel : p - i ≤ fuel) (data : List α) (temp : α)
    (hb : b + m * n ≤ data.length) :
    ∃ data' x, rotate m n s (b : Int) data temp ((next m n)^[i] s) fuel = .ok (data', x) ∧
      data'.length = data.length ∧ data[b + (next m n)^[p - 1] s]? = some x ∧
      data'[b + (next m n)^[i] s]? = some temp ∧
      (∀ j, i < j → j < p → data'[b + (next m n)^[j] s]? = data[b + (next m n)^[j - 1] s]?) ∧
      (∀ q, (∀ j, i ≤ j → j < p → q ≠ b + (next m n)^[j] s) → data'[q]? = data[q]?) := by
  have hlt : ∀ j, (next m n)^[j] s < m * n := iter_lt (fun k hk => next_lt hk) hs
  have hdist : ∀ i j, i < j → j < p → (next m n)^[i] s ≠ (next m n)^[j] s :=
    fun i j => IsPeriod.distinct (fun k hk => next_lt hk) (fun a b ha hb => next_inj ha hb) hs hp
  induction fuel generalizing i data temp with
  | zero => omega
  | succ fuel ih =>
    have hl := hlt i
    have hlen : b + (next m n)^[i] s < data.length := by omega
    rw [rotate, load_nat (List.getElem?_eq_getElem hlen)]
    simp only [Outcome.bind_ok]
    rw [store_nat temp hlen]
    simp only [Outcome.bind_ok]
    rw [← Function.iterate_succ_apply' (next m n)]
    by_cases hlast : i + 1 = p
    · rw [if_neg (by rw [show i.succ = p by omega, hp.back]; simp)]
      refine ⟨_, _, rfl, by simp, ?_, ?_, ?_, ?_⟩
      · rw [show p - 1 = i by omega]; exact List.getElem?_eq_getElem hlen
      · rw [List.getElem?_set_self hlen]
      · intro j h1 h2; omega
      · intro q hq
        rw [List.getElem?_set_ne (Ne.symm (hq i (le_refl _) hi))]
    · rw [if_pos (hp.first _ (by omega) (by omega))]
      obtain ⟨data', x, e, h1, h2, h3, h4, h5⟩ := ih (i + 1) (by omega) (by omega)
        (data.set (b + (next m n)^[i] s) temp) data[b + (next m n)^[i] s] (by simpa using hb)
      refine ⟨data', x, e, by simpa using h1, ?_, ?_, ?_, ?_⟩
      · rw [List.getElem?_set_ne] at h2
        · exact h2
        · have := hdist i (p - 1) (by omega) (by omega); omega
      · rw [h5, List.getElem?_set_self hlen]
        intro j hj1 hj2
        have := hdist i j (by omega) hj2; omega
      · intro j hj1 hj2
        by_cases hj : j = i + 1
        · subst hj
          rw [h3, Nat.add_sub_cancel]
          exact (List.getElem?_eq_getElem hlen).symm
        · rw [h4 j (by omega) hj2, List.getElem?_set_ne]
          have := hdist i (j - 1) (by omega) (by omega); omega
      · intro q hq
        rw [h5 q (fun j hj1 hj2 => hq j (by omega) hj2), List.getElem?_set_ne]
        exact Ne.symm (hq i (le_refl _) hi)

/-! ### The outer loop -/

/-- Cycles with an element below `s` have been moved, the others not. -/
structure Inv (m n b : Nat) (D : List α) (s : Nat) (data : List α) : Prop where
  len : data.length = D.length
  moved : ∀ q, q < m * n → (∃ i, (next m n)^[i] q < s) → data[b + next m n q]? = D[b + q]?
  rest : ∀ q, q < m * n → (¬∃ i, (next m n)^[i] q < s) → data[b + q]? = D[b + q]?
  frame : ∀ q, (∀ k, k < m * n → q ≠ b + k) → data[q]? = D[q]?

theorem cycles_eq {m n b : Nat} (D : List α) (hb : b + m * n ≤ D.length) (fuel : Nat) (hfuel : m * n ≤ fuel)
    (s cnt : Nat) (hs : s + cnt = m * n) (data : List α) (hI : Inv m n b D s data) :
    ∃ data', cycles m n (b : Int) fuel s cnt data = .ok data' ∧ Inv m n b D (m * n) data' := by
  induction cnt generalizing s data with
  | zero =>
    refine ⟨data, rfl, ?_⟩
    have : s = m * n := by omega
    rw [← this]; exact hI
  | succ cnt ih =>
    have hsN : s < m * n := by omega
    have hf : ∀ k, k < m * n → next m n k < m * n := fun k hk => next_lt hk
    have hinj : ∀ a b, a < m * n → b < m * n → next m n a = next m n b → a = b :=
      fun a b ha hb => next_inj ha hb
    have hlen : b + s < data.length := by rw [hI.len]; omega
    obtain ⟨p, hpN, hp⟩ := isPeriod_exists hf hinj hsN
    rw [cycles, load_nat (List.getElem?_eq_getElem hlen)]
    simp only [Outcome.bind_ok]
    by_cases hab : ∃ j, j < p ∧ (next m n)^[j] s < s
    · obtain ⟨j, hj1, hj2⟩ := hab
      have := lookAhead_true hp 0 hp.pos fuel (by omega) ⟨j, by omega, hj1, hj2⟩
      rw [Function.iterate_zero_apply] at this
      rw [this]
      simp only [Outcome.bind_ok, if_true]
      refine ih (s + 1) (by omega) data ⟨hI.len, ?_, ?_, hI.frame⟩
      · intro q hq ⟨i, hi⟩
        refine hI.moved q hq ?_
        by_cases he : (next m n)^[i] q = s
        · refine ⟨j + i, ?_⟩
          rw [Function.iterate_add_apply, he]; exact hj2
        · exact ⟨i, by omega⟩
      · intro q hq hn
        exact hI.rest q hq (fun ⟨i, hi⟩ => hn ⟨i, by omega⟩)
    · have hall : ∀ j, ¬(next m n)^[j] s < s := by
        intro j hlt
        obtain ⟨j', hj', he⟩ := hp.mod j
        exact hab ⟨j', hj', he ▸ hlt⟩
      have := lookAhead_false hp 0 hp.pos fuel (by omega) (fun j _ _ => hall j)
      rw [Function.iterate_zero_apply] at this
      rw [this]
      simp only [Outcome.bind_ok, Bool.false_eq_true, if_false]
      obtain ⟨d1, x, e, h1, h2, h3, h4, h5⟩ := rotate_eq hsN hp b 0 hp.pos fuel (by omega) data data[b + s]
        (by rw [hI.len]; omega)
      rw [Function.iterate_zero_apply] at e
      rw [e]
      simp only [Outcome.bind_ok]
      rw [store_nat x (by rw [h1]; exact hlen)]
      simp only [Outcome.bind_ok]
      -- the whole cycle has been moved one step
      have cyc : ∀ j, j < p → (d1.set (b + s) x)[b + next m n ((next m n)^[j] s)]? = data[b + (next m n)^[j] s]? := by
        intro j hj
        rw [← Function.iterate_succ_apply' (next m n)]
        by_cases hl : j + 1 = p
        · rw [show j.succ = p by omega, hp.back, List.getElem?_set_self (by rw [h1]; exact hlen), ← h2,
            show p - 1 = j by omega]
        · have hd := IsPeriod.distinct hf hinj hsN hp (i := 0) (j := j + 1) (by omega) (by omega)
          rw [Function.iterate_zero_apply] at hd
          have hd' : s ≠ (next m n)^[j.succ] s := hd
          rw [List.getElem?_set_ne (by omega)]
          have := h4 (j + 1) (by omega) (by omega)
          rw [Nat.add_sub_cancel] at this
          exact this
      have oth : ∀ q, (∀ j, j < p → q ≠ b + (next m n)^[j] s) → (d1.set (b + s) x)[q]? = data[q]? := by
        intro q hq
        have h0 := hq 0 hp.pos
        rw [Function.iterate_zero_apply] at h0
        rw [List.getElem?_set_ne (Ne.symm h0)]
        exact h5 q (fun j _ hj => hq j hj)
      refine ih (s + 1) (by omega) _ ⟨by simp [h1, hI.len], ?_, ?_, ?_⟩
      · intro q hq ⟨i, hi⟩
        by_cases hold : ∃ i, (next m n)^[i] q < s
        · rw [oth, hI.moved q hq hold]
          intro j hj he
          have he' : next m n q = (next m n)^[j] s := by omega
          obtain ⟨j', hj', hq'⟩ := preimage_in_cycle hf hinj hsN hq hp he'
          obtain ⟨i', hi'⟩ := hold
          refine hall (i' + j') ?_
          rw [Function.iterate_add_apply, ← hq']; exact hi'
        · have he : (next m n)^[i] q = s := by
            have : ¬(next m n)^[i] q < s := fun h => hold ⟨i, h⟩
            omega
          obtain ⟨j, hj, hq'⟩ := in_cycle_of_reaches hf hinj hsN hq hp he
          rw [← hI.rest q hq hold, hq']
          exact cyc j hj
      · intro q hq hn
        rw [oth, hI.rest q hq (fun ⟨i, hi⟩ => hn ⟨i, by omega⟩)]
        intro j hj he
        have he' : q = (next m n)^[j] s := by omega
        exact hn ⟨p - j, by rw [he', hp.reach hj]; omega⟩
      · intro q hq
        rw [oth, hI.frame q hq]
        exact fun j _ => hq _ (iter_lt hf hsN j)

/-- `inPlace` on the block of `m * n` elements from `b` on. -/
theorem inPlace_block {m n b : Nat} (D : List α) (hb : b + m * n ≤ D.length) (fuel : Nat)
    (hfuel : m * n ≤ fuel) :
    ∃ data, inPlace fuel D (b : Int) m n = .ok data ∧ data.length = D.length ∧
      (∀ r c, r < m → c < n → data[b + (c * m + r)]? = D[b + (r * n + c)]?) ∧
      (∀ q, (∀ k, k < m * n → q ≠ b + k) → data[q]? = D[q]?) := by
  unfold inPlace
  rcases Nat.eq_zero_or_pos (m * n) with h0 | hpos
  · refine ⟨D, by rw [h0]; rfl, rfl, ?_, fun _ _ => rfl⟩
    intro r c hr hc
    have := lt_of hr hc
    omega
  · have hI : Inv m n b D 1 D := by
      refine ⟨rfl, ?_, fun _ _ _ => rfl, fun _ _ => rfl⟩
      intro q hq ⟨i, hi⟩
      have h0 : (next m n)^[i] q = 0 := by omega
      have hz : (next m n)^[i] 0 = 0 := Function.iterate_fixed next_zero i
      have : q = 0 := iter_inj (fun k hk => next_lt hk) (fun a b ha hb => next_inj ha hb) hq hpos i
        (h0.trans hz.symm)
      subst this
      rw [next_zero]
    obtain ⟨data, e, h⟩ := cycles_eq D hb fuel hfuel 1 (m * n - 1) (by omega) D hI
    refine ⟨data, e, h.len, ?_, h.frame⟩
    intro r c hr hc
    have hk := lt_of hr hc
    have := h.moved (r * n + c) hk ⟨0, hk⟩
    rw [next_of hc] at this
    exact this

/-! ### Out of place -/

theorem outCols_eq {src : List α} {si R C r : Nat} (hr : r < R) (hs : si + R * C ≤ src.length) (di c k : Nat)
    (hk : c + k = C) (dst : List α) (hd : di + C * R ≤ dst.length) :
    ∃ dst', outCols src (si : Int) R C r (di : Int) c k dst = .ok dst' ∧ dst'.length = dst.length ∧
      (∀ c', c ≤ c' → c' < C → dst'[di + (c' * R + r)]? = src[si + (r * C + c')]?) ∧
      (∀ q, (∀ c', c ≤ c' → c' < C → q ≠ di + (c' * R + r)) → dst'[q]? = dst[q]?) := by
  induction k generalizing c dst with
  | zero => exact ⟨dst, rfl, rfl, fun c' h1 h2 => by omega, fun _ _ => rfl⟩
  | succ k ih =>
    have hc : c < C := by omega
    have h1 := lt_of hr hc
    have h2 := lt_of hc hr
    have hl : si + (r * C + c) < src.length := by omega
    have hl' : di + (c * R + r) < dst.length := by omega
    rw [outCols, load_nat (List.getElem?_eq_getElem hl)]
    simp only [Outcome.bind_ok]
    rw [store_nat _ hl']
    simp only [Outcome.bind_ok]
    obtain ⟨dst', e, h3, h4, h5⟩ := ih (c + 1) (by omega) (dst.set (di + (c * R + r)) src[si + (r * C + c)])
      (by simpa using hd)
    have key : ∀ c', c + 1 ≤ c' → c * R + r ≠ c' * R + r := by
      intro c' hc'
      have : (c + 1) * R ≤ c' * R := Nat.mul_le_mul_right _ hc'
      rw [Nat.add_mul, Nat.one_mul] at this
      omega
    refine ⟨dst', e, by simpa using h3, ?_, ?_⟩
    · intro c' g1 g2
      by_cases he : c' = c
      · subst he
        rw [h5, List.getElem?_set_self hl']
        · exact (List.getElem?_eq_getElem hl).symm
        · intro c'' g3 g4
          have := key c'' g3; omega
      · exact h4 c' (by omega) g2
    · intro q hq
      rw [h5 q (fun c' g1 g2 => hq c' (by omega) g2), List.getElem?_set_ne]
      exact Ne.symm (hq c (le_refl _) hc)

theorem outRows_eq {src : List α} {si R C : Nat} (hs : si + R * C ≤ src.length) (di r k : Nat)
    (hk : r + k = R) (dst : List α) (hd : di + C * R ≤ dst.length) :
    ∃ dst', outRows src (si : Int) R C (di : Int) r k dst = .ok dst' ∧ dst'.length = dst.length ∧
      (∀ r' c', r ≤ r' → r' < R → c' < C → dst'[di + (c' * R + r')]? = src[si + (r' * C + c')]?) ∧
      (∀ q, (∀ r' c', r ≤ r' → r' < R → c' < C → q ≠ di + (c' * R + r')) → dst'[q]? = dst[q]?) := by
  induction k generalizing r dst with
  | zero => exact ⟨dst, rfl, rfl, fun r' c' h1 h2 => by omega, fun _ _ => rfl⟩
  | succ k ih =>
    have hr : r < R := by omega
    obtain ⟨d1, e1, g1, g2, g3⟩ := outCols_eq (src := src) (si := si) hr hs di 0 C (by omega) dst hd
    obtain ⟨d2, e2, k1, k2, k3⟩ := ih (r + 1) (by omega) d1 (by rw [g1]; exact hd)
    rw [outRows, e1]
    simp only [Outcome.bind_ok]
    refine ⟨d2, e2, k1.trans g1, ?_, ?_⟩
    · intro r' c' h1 h2 h3
      by_cases he : r' = r
      · subst he
        rw [k3, g2 c' (by omega) h3]
        intro r'' c'' h4 h5 h6 heq
        have hm := congrArg (· % R) (show c' * R + r' = c'' * R + r'' by omega)
        simp only [mod_of h2, mod_of h5] at hm
        omega
      · exact k2 r' c' (by omega) h2 h3
    · intro q hq
      rw [k3 q (fun r' c' h1 h2 h3 => hq r' c' (by omega) h2 h3),
        g3 q (fun c' h1 h2 => hq r c' (le_refl _) hr h2)]

/-- `outOfPlace` from the block at `si` of one array to the block at `di` of another. -/
theorem outOfPlace_block {src : List α} {si R C : Nat} (hs : si + R * C ≤ src.length) (di : Nat)
    (dst : List α) (hd : di + C * R ≤ dst.length) :
    ∃ dst', outOfPlace src (si : Int) R C dst (di : Int) = .ok dst' ∧ dst'.length = dst.length ∧
      (∀ r c, r < R → c < C → dst'[di + (c * R + r)]? = src[si + (r * C + c)]?) ∧
      (∀ q, (∀ k, k < C * R → q ≠ di + k) → dst'[q]? = dst[q]?) := by
  obtain ⟨d, e, h1, h2, h3⟩ := outRows_eq hs di 0 R (by omega) dst hd
  refine ⟨d, e, h1, fun r c hr hc => h2 r c (by omega) hr hc, fun q hq => h3 q ?_⟩
  intro r c _ hr hc
  exact hq _ (lt_of hc hr)

/-! ### The specification -/

theorem _root_.Libube.TransposeSpec.IsTranspose.symm {R C : Nat} {xs ys : List α} (h : IsTranspose R C xs ys) :
    IsTranspose C R ys xs :=
  ⟨h.size_out, h.size_in, fun r c hr hc => (h.swap c r hc hr).symm⟩

theorem _root_.Libube.TransposeSpec.IsTranspose.unique {R C : Nat} {xs ys zs : List α} (h : IsTranspose R C xs ys)
    (g : IsTranspose R C xs zs) : ys = zs := by
  apply List.ext_getElem?
  intro k
  by_cases hk : k < C * R
  · obtain ⟨h1, h2, h3⟩ := split_of hk
    rw [← h3, h.swap _ _ h2 h1, g.swap _ _ h2 h1]
  · rw [List.getElem?_eq_none (by rw [h.size_out]; omega), List.getElem?_eq_none (by rw [g.size_out]; omega)]

/-! ### Blocks -/

theorem blocks_eq (f : Int → Int → List α → Outcome (List α)) (stepI stepO : Int) (base S L : Nat)
    (G : Nat → (Nat → Option α) → Nat → Option α) (n : Nat)
    (hf : ∀ i, i < n → ∀ out : List α, out.length = L → ∃ out', f (stepI * i) (stepO * i) out = .ok out' ∧
      out'.length = L ∧
      (∀ q, q < S → out'[base + S * i + q]? = G i (fun q => out[base + S * i + q]?) q) ∧
      (∀ k, (∀ q, q < S → k ≠ base + S * i + q) → out'[k]? = out[k]?))
    (hG : ∀ i g g', (∀ q, q < S → g q = g' q) → ∀ q, q < S → G i g q = G i g' q)
    (i k : Nat) (hk : i + k = n) (out : List α) (hout : out.length = L) :
    ∃ out', blocks f stepI stepO i k out = .ok out' ∧ out'.length = L ∧
      (∀ j, i ≤ j → j < n → ∀ q, q < S → out'[base + S * j + q]? = G j (fun q => out[base + S * j + q]?) q) ∧
      (∀ p, (∀ j, i ≤ j → j < n → ∀ q, q < S → p ≠ base + S * j + q) → out'[p]? = out[p]?) := by
  induction k generalizing i out with
  | zero => exact ⟨out, rfl, hout, fun j h1 h2 => by omega, fun _ _ => rfl⟩
  | succ k ih =>
    obtain ⟨o1, e1, g1, g2, g3⟩ := hf i (by omega) out hout
    obtain ⟨o2, e2, k1, k2, k3⟩ := ih (i + 1) (by omega) o1 g1
    have sep : ∀ j, i + 1 ≤ j → ∀ q, q < S → ∀ q', base + S * i + q ≠ base + S * j + q' := by
      intro j hj q hq q'
      have : S * (i + 1) ≤ S * j := Nat.mul_le_mul_left _ hj
      rw [Nat.mul_add, Nat.mul_one] at this
      omega
    rw [blocks, e1]
    simp only [Outcome.bind_ok]
    refine ⟨o2, e2, k1, ?_, ?_⟩
    · intro j h1 h2 q hq
      by_cases he : j = i
      · subst he
        rw [k3, g2 q hq]
        exact fun j' h3 _ q' _ => sep j' h3 q hq q'
      · rw [k2 j (by omega) h2 q hq]
        apply hG j _ _ _ q hq
        intro q' hq'
        exact g3 _ (fun q'' hq'' => Ne.symm (sep j (by omega) q'' hq'' q'))
    · intro p hp
      rw [k3 p (fun j h1 h2 => hp j (by omega) h2), g3 p (hp i (le_refl _) (by omega))]

/-- Where element `q` of a transposed block comes from. -/
def prev (R C q : Nat) : Nat := (q % R) * C + q / R

theorem prev_of {R C r c : Nat} (hr : r < R) : prev R C (c * R + r) = r * C + c := by
  unfold prev; rw [mod_of hr, div_of hr]

theorem vectorOut_block {a out : Arr α} {o o' : Nat} {lead : List Int} {R C : Nat}
    (ha : HasShape a o (lead ++ [(R : Int), (C : Int)])) (hout : offset out = .ok (o' : Int)) (si di : Nat)
    (hs : o + si + R * C ≤ a.data.length) (dst : List α) (hd : o' + di + C * R ≤ dst.length) :
    ∃ dst', vectorOut a out si di dst = .ok dst' ∧ dst'.length = dst.length ∧
      (∀ q, q < R * C → dst'[o' + di + q]? = a.data[o + si + prev R C q]?) ∧
      (∀ k, (∀ q, q < R * C → k ≠ o' + di + q) → dst'[k]? = dst[k]?) := by
  unfold vectorOut
  have h1 := ha.shape (pre := lead) (d := R) (suf := [(C : Int)]) rfl
  have h2 := ha.shape (pre := lead ++ [(R : Int)]) (d := C) (suf := []) (by simp)
  have hdim := ha.dim
  rw [hdim]
  simp only [List.length_append, List.length_cons, List.length_nil] at h1 h2 ⊢
  rw [show ((lead.length + (0 + 1 + 1) : Nat) : Int) - 2 = lead.length by omega, h1]
  simp only [Outcome.bind_ok]
  rw [show ((lead.length + (0 + 1 + 1) : Nat) : Int) - 1 = ((lead.length + (0 + 1) : Nat) : Int) by omega, h2, ha.offset, hout]
  simp only [Outcome.bind_ok, Int.toNat_natCast]
  rw [show (o : Int) + (si : Int) = ((o + si : Nat) : Int) by push_cast; rfl,
    show (o' : Int) + (di : Int) = ((o' + di : Nat) : Int) by push_cast; rfl]
  obtain ⟨d, e, k1, k2, k3⟩ := outOfPlace_block (src := a.data) (si := o + si) (R := R) (C := C) hs (o' + di) dst hd
  refine ⟨d, e, k1, ?_, ?_⟩
  · intro q hq
    rw [Nat.mul_comm] at hq
    obtain ⟨q1, q2, q3⟩ := split_of hq
    have := k2 _ _ q2 q1
    rw [q3] at this
    rw [this]; rfl
  · intro k hk
    exact k3 k (fun q hq => hk q (by rwa [Nat.mul_comm]))

theorem vectorIn_block {a : Arr α} {o : Nat} {lead : List Int} {R C : Nat}
    (ha : HasShape a o (lead ++ [(R : Int), (C : Int)])) (fuel : Nat) (hfuel : R * C ≤ fuel) (si : Int) (di : Nat)
    (dst : List α) (hd : o + di + R * C ≤ dst.length) :
    ∃ dst', vectorIn fuel a si di dst = .ok dst' ∧ dst'.length = dst.length ∧
      (∀ q, q < R * C → dst'[o + di + q]? = dst[o + di + prev R C q]?) ∧
      (∀ k, (∀ q, q < R * C → k ≠ o + di + q) → dst'[k]? = dst[k]?) := by
  unfold vectorIn
  have h1 := ha.shape (pre := lead) (d := R) (suf := [(C : Int)]) rfl
  have h2 := ha.shape (pre := lead ++ [(R : Int)]) (d := C) (suf := []) (by simp)
  have hdim := ha.dim
  rw [hdim]
  simp only [List.length_append, List.length_cons, List.length_nil] at h1 h2 ⊢
  rw [show ((lead.length + (0 + 1 + 1) : Nat) : Int) - 2 = lead.length by omega, h1]
  simp only [Outcome.bind_ok]
  rw [show ((lead.length + (0 + 1 + 1) : Nat) : Int) - 1 = ((lead.length + (0 + 1) : Nat) : Int) by omega, h2, ha.offset]
  simp only [Outcome.bind_ok, Int.toNat_natCast]
  rw [show (o : Int) + (di : Int) = ((o + di : Nat) : Int) by push_cast; rfl]
  obtain ⟨d, e, k1, k2, k3⟩ := inPlace_block (m := R) (n := C) (b := o + di) dst hd fuel hfuel
  refine ⟨d, e, k1, ?_, k3⟩
  intro q hq
  rw [Nat.mul_comm] at hq
  obtain ⟨q1, q2, q3⟩ := split_of hq
  have := k2 _ _ q2 q1
  rw [q3] at this
  rw [this]; rfl

theorem blockStep_eq {a : Arr α} {o : Int} {lead tail : List Int} (ha : HasShape a o (lead ++ tail)) :
    blockStep a tail.length = .ok tail.prod := by
  unfold blockStep
  rw [ha.dim]
  simp only [List.length_append, Nat.add_sub_cancel]
  cases hl : lead using List.reverseRecOn with
  | nil =>
    subst hl
    rw [if_neg (by simp), ha.size]
    simp
  | append_singleton l d =>
    subst hl
    rw [if_pos (by simp)]
    have := ha.stride (pre := l) (d := d) (suf := tail) (by simp)
    simp only [List.length_append, List.length_singleton]
    rw [show ((l.length + 1 + tail.length : Nat) : Int) - tail.length - 1 = l.length by omega]
    exact this

theorem set_length_append (l : List α) (x y : α) (t : List α) : (l ++ x :: t).set l.length y = l ++ y :: t := by
  induction l with
  | nil => rfl
  | cons a l ih => simp only [List.cons_append, List.length_cons, List.set_cons_succ, ih]

theorem getElem?_length_append (l : List α) (x : α) (t : List α) : (l ++ x :: t)[l.length]? = some x := by
  rw [List.getElem?_append_right (le_refl _)]; simp

theorem flat_append (p t : List Int) : ∃ l : List Int, l.length = 2 * p.length ∧
    ∀ t' : List Int, t'.prod = t.prod → flat (p ++ t') = l ++ flat t' := by
  induction p with
  | nil => exact ⟨[], rfl, fun t' _ => rfl⟩
  | cons d ds ih =>
    obtain ⟨l, hl, h⟩ := ih
    refine ⟨d :: (ds ++ t).prod :: l, by simp only [List.length_cons, hl]; omega, fun t' ht => ?_⟩
    rw [List.cons_append, flat, h t' ht]
    simp [ht]

theorem swapDims_eq (o : Int) (lead : List Int) (R C : Int) (hR : -2 ^ 31 ≤ R ∧ R < 2 ^ 31) :
    swapDims (o :: flat (lead ++ [R, C])) (lead ++ [R, C]).length = .ok (o :: flat (lead ++ [C, R])) := by
  obtain ⟨l, hl, h⟩ := flat_append lead [R, C]
  have e1 : flat (lead ++ [R, C]) = l ++ [R, C, C, 1] := by
    rw [h _ rfl]; simp [flat]
  have e2 : flat (lead ++ [C, R]) = l ++ [C, R, R, 1] := by
    rw [h _ (by simp [mul_comm])]; simp [flat]
  have s1 := viewStride_flat o (lead ++ [R]) C []
  have p1 := viewShape_flat o (lead ++ [R]) C []
  have s2 := viewStride_flat o lead R [C]
  have p2 := viewShape_flat o lead R [C]
  have hlen : (lead ++ [R, C]).length = lead.length + 2 := by simp
  simp only [List.append_assoc, List.singleton_append, List.length_append, List.length_singleton] at s1 p1
  unfold swapDims
  rw [hlen]
  rw [show ((lead.length + 2 : Nat) : Int) - 1 = ((lead.length + 1 : Nat) : Int) by omega,
    show ((lead.length + 2 : Nat) : Int) - 2 = ((lead.length : Nat) : Int) by omega, s1, p1, s2, p2]
  simp only [Outcome.bind_ok]
  rw [e1, e2]
  have q1 : (lead.length + 2 - 1) * 2 + 1 = (o :: l ++ [R, C] : List Int).length := by
    simp only [List.length_append, List.length_cons, List.length_nil, hl]; omega
  have q2 : (lead.length + 2 - 2) * 2 + 1 = (o :: l : List Int).length := by
    simp only [List.length_cons, hl]; omega
  have q3 : (lead.length + 2 - 2) * 2 + 2 = (o :: l ++ [C] : List Int).length := by
    simp only [List.length_append, List.length_cons, List.length_nil, hl]; omega
  rw [q1, q2, q3]
  rw [show o :: (l ++ [R, C, C, 1]) = (o :: l ++ [R, C]) ++ C :: [1] by simp, ipSet,
    if_pos (by simp), set_length_append]
  simp only [Outcome.bind_ok]
  rw [show (o :: l ++ [R, C]) ++ R :: [1] = (o :: l) ++ R :: [C, R, 1] by simp, ipSet,
    if_pos (by simp), set_length_append]
  simp only [Outcome.bind_ok, List.prod_nil, mul_one]
  rw [cint_ok hR]
  simp only [Outcome.bind_ok]
  rw [show (o :: l) ++ C :: [C, R, 1] = (o :: l ++ [C]) ++ C :: [R, 1] by simp, ipSet,
    if_pos (by simp), set_length_append]
  simp

theorem load_congr {d d' : List α} {i j : Nat} (h : d[i]? = d'[j]?) : load d (i : Int) = load d' (j : Int) := by
  unfold load
  rw [if_neg (by omega), if_neg (by omega), Int.toNat_natCast, Int.toNat_natCast, h]

theorem tdiv_blocks (n S : Nat) (hS : 0 < S) : (((n : Int) * S).tdiv S).toNat = n := by
  rw [Int.mul_tdiv_cancel _ (by omega)]; simp

theorem broadcastOut_eq {a out : Arr α} {o n : Nat} {lead : List Int} {R C : Nat} (hn : lead.prod = n)
    (hR : 0 < R) (hC : 0 < C)
    (ha : HasShape a o (lead ++ [(R : Int), (C : Int)])) (hs : o + n * (R * C) ≤ a.data.length)
    (hout : HasShape out 0 (lead ++ [(C : Int), (R : Int)])) (hl : out.data.length = n * (R * C)) :
    ∃ d, broadcast 2 (vectorOut a out) a out = .ok d ∧ d.length = n * (R * C) ∧
      ∀ k, k < n → ∀ q, q < R * C → d[R * C * k + q]? = a.data[o + R * C * k + prev R C q]? := by
  have hS : 0 < R * C := Nat.mul_pos hR hC
  have s1 := blockStep_eq ha
  have s2 := blockStep_eq hout
  simp only [List.length_cons, List.length_nil, List.prod_cons, List.prod_nil, mul_one] at s1 s2
  unfold broadcast
  rw [if_neg (by rw [ha.dim]; simp)]
  rw [s1, s2, ha.size]
  simp only [Outcome.bind_ok]
  rw [if_neg (by exact_mod_cast hS.ne')]
  rw [List.prod_append, hn]
  simp only [List.prod_cons, List.prod_nil, mul_one]
  rw [show (n : Int) * ((R : Int) * C) = (n : Int) * ((R * C : Nat) : Int) by push_cast; rfl,
    show (R : Int) * C = ((R * C : Nat) : Int) by push_cast; rfl,
    show (C : Int) * R = ((R * C : Nat) : Int) by push_cast; rw [mul_comm], tdiv_blocks n _ hS]
  have hf : ∀ i, i < n → ∀ dst : List α, dst.length = n * (R * C) → ∃ d,
      vectorOut a out (((R * C : Nat) : Int) * i) (((R * C : Nat) : Int) * i) dst = .ok d ∧ d.length = n * (R * C) ∧
      (∀ q, q < R * C → d[0 + R * C * i + q]? = a.data[o + R * C * i + prev R C q]?) ∧
      (∀ k, (∀ q, q < R * C → k ≠ 0 + R * C * i + q) → d[k]? = dst[k]?) := by
    intro i hi dst hdst
    have hb : R * C * (i + 1) ≤ R * C * n := Nat.mul_le_mul_left _ hi
    rw [Nat.mul_add, Nat.mul_one, Nat.mul_comm (R * C) n] at hb
    obtain ⟨d, e, k1, k2, k3⟩ := vectorOut_block ha (o' := 0) (out := out) hout.offset (R * C * i) (R * C * i)
      (by omega) dst (by rw [Nat.mul_comm C R, hdst]; omega)
    refine ⟨d, ?_, k1.trans hdst, k2, k3⟩
    rw [← e]; push_cast; rfl
  obtain ⟨d, e, g1, g2, g3⟩ := blocks_eq (vectorOut a out) ((R * C : Nat) : Int) ((R * C : Nat) : Int) 0 (R * C)
    (n * (R * C)) (fun k _ q => a.data[o + R * C * k + prev R C q]?) n hf (fun _ _ _ _ _ _ => rfl) 0 n (by omega)
    out.data hl
  refine ⟨d, e, g1, fun k hk q hq => ?_⟩
  have := g2 k (by omega) hk q hq
  rw [Nat.zero_add] at this
  exact this

theorem broadcastIn_eq {a : Arr α} {o n : Nat} {lead : List Int} {R C : Nat} (hn : lead.prod = n)
    (hR : 0 < R) (hC : 0 < C) (fuel : Nat) (hfuel : R * C ≤ fuel)
    (ha : HasShape a o (lead ++ [(R : Int), (C : Int)])) (hs : o + n * (R * C) ≤ a.data.length) :
    ∃ d, broadcast 2 (vectorIn fuel a) a a = .ok d ∧ d.length = a.data.length ∧
      (∀ k, k < n → ∀ q, q < R * C → d[o + R * C * k + q]? = a.data[o + R * C * k + prev R C q]?) ∧
      (∀ p, p < o ∨ o + n * (R * C) ≤ p → d[p]? = a.data[p]?) := by
  have hS : 0 < R * C := Nat.mul_pos hR hC
  have s1 := blockStep_eq ha
  simp only [List.length_cons, List.length_nil, List.prod_cons, List.prod_nil, mul_one] at s1
  unfold broadcast
  rw [if_neg (by rw [ha.dim]; simp)]
  rw [s1, ha.size]
  simp only [Outcome.bind_ok]
  rw [if_neg (by exact_mod_cast hS.ne')]
  rw [List.prod_append, hn]
  simp only [List.prod_cons, List.prod_nil, mul_one]
  rw [show (n : Int) * ((R : Int) * C) = (n : Int) * ((R * C : Nat) : Int) by push_cast; rfl,
    show (R : Int) * C = ((R * C : Nat) : Int) by push_cast; rfl, tdiv_blocks n _ hS]
  have hprev : ∀ q, q < R * C → prev R C q < R * C := by
    intro q hq
    rw [Nat.mul_comm] at hq
    obtain ⟨q1, q2, q3⟩ := split_of hq
    exact lt_of q2 q1
  have hf : ∀ i, i < n → ∀ dst : List α, dst.length = a.data.length → ∃ d,
      vectorIn fuel a (((R * C : Nat) : Int) * i) (((R * C : Nat) : Int) * i) dst = .ok d ∧ d.length = a.data.length ∧
      (∀ q, q < R * C → d[o + R * C * i + q]? = dst[o + R * C * i + prev R C q]?) ∧
      (∀ k, (∀ q, q < R * C → k ≠ o + R * C * i + q) → d[k]? = dst[k]?) := by
    intro i hi dst hdst
    have hb : R * C * (i + 1) ≤ R * C * n := Nat.mul_le_mul_left _ hi
    rw [Nat.mul_add, Nat.mul_one, Nat.mul_comm (R * C) n] at hb
    obtain ⟨d, e, k1, k2, k3⟩ := vectorIn_block ha fuel hfuel (((R * C : Nat) : Int) * i) (R * C * i)
      dst (by omega)
    refine ⟨d, ?_, k1.trans hdst, k2, k3⟩
    rw [← e]; push_cast; rfl
  obtain ⟨d, e, g1, g2, g3⟩ := blocks_eq (vectorIn fuel a) ((R * C : Nat) : Int) ((R * C : Nat) : Int) o (R * C)
    a.data.length (fun _ g q => g (prev R C q)) n hf (fun _ _ _ h q hq => h _ (hprev q hq)) 0 n (by omega)
    a.data rfl
  refine ⟨d, e, g1, fun k hk q hq => g2 k (by omega) hk q hq, fun p hp => g3 p ?_⟩
  intro j _ hj q hq he
  have hb : R * C * (j + 1) ≤ R * C * n := Nat.mul_le_mul_left _ hj
  rw [Nat.mul_add, Nat.mul_one, Nat.mul_comm (R * C) n] at hb
  omega

theorem fits_of_pos {t : List Int} (ht : ∀ d ∈ t, 0 < d) (hl : t.prod < 2 ^ 31) : ViewSpec.Fits t := by
  induction t with
  | nil => trivial
  | cons d ds ih =>
    have h2 : 0 < ds.prod := prod_pos fun x hx => ht x (by simp [hx])
    have h3 : 1 ≤ d := ht d (by simp)
    rw [List.prod_cons] at hl
    refine ⟨⟨?_, by rw [List.prod_cons]; exact hl⟩, ih (fun x hx => ht x (by simp [hx])) ?_⟩
    · have := prod_pos ht; omega
    · nlinarith

theorem broadcast_throws {a : Arr α} {o : Int} {n : Nat} {lead : List Int} {R C : Nat} {e : Exn} (hn : lead.prod = n)
    (hn0 : 0 < n) (hR : 0 < R) (hC : 0 < C)
    (ha : HasShape a o (lead ++ [(R : Int), (C : Int)])) :
    broadcast 2 (fun _ _ _ => .thrown e) a a = .thrown e := by
  have hS : 0 < R * C := Nat.mul_pos hR hC
  have s1 := blockStep_eq ha
  simp only [List.length_cons, List.length_nil, List.prod_cons, List.prod_nil, mul_one] at s1
  unfold broadcast
  rw [if_neg (by rw [ha.dim]; simp)]
  rw [s1, ha.size]
  simp only [Outcome.bind_ok]
  rw [if_neg (by exact_mod_cast hS.ne')]
  rw [List.prod_append, hn]
  simp only [List.prod_cons, List.prod_nil, mul_one]
  rw [show (n : Int) * ((R : Int) * C) = (n : Int) * ((R * C : Nat) : Int) by push_cast; rfl,
    show (R : Int) * C = ((R * C : Nat) : Int) by push_cast; rfl, tdiv_blocks n _ hS]
  cases n with
  | zero => omega
  | succ n => rfl

/-- Floats and doubles, the types the functor handles. -/
def Real (k : Kind) : Prop := k = .float ∨ k = .double

theorem vectorOf_real {k : Kind} (hk : Real k) (f : Int → Int → List α → Outcome (List α)) : vectorOf k f = f := by
  rcases hk with rfl | rfl <;> rfl

theorem vectorOf_other {k : Kind} (hk : ¬ Real k) (f : Int → Int → List α → Outcome (List α)) :
    vectorOf k f = fun _ _ _ => .thrown (.error "Transpose::vector(): unknown type") := by
  funext a b c
  unfold Real at hk
  cases k <;> first | rfl | simp at hk

theorem transposeInPlace_eq {k : Kind} (hk : Real k) {v : Arr α} {o n : Nat} {lead : List Int} {R C : Nat} {ip : List Int} (hn : lead.prod = n)
    (hn0 : 0 < n) (hR : 0 < R) (hC : 0 < C) (fuel : Nat) (hfuel : R * C ≤ fuel) (hip : v.ip = some ip)
    (hs : HasShape v o (lead ++ [(R : Int), (C : Int)])) (hl : o + n * (R * C) ≤ v.data.length)
    (hbound : ((n * (R * C) : Nat) : Int) < 2 ^ 31) :
    ∃ d, transposeInPlace k fuel v = .ok ⟨d, some (o :: flat (lead ++ [(C : Int), (R : Int)]))⟩ ∧
      d.length = v.data.length ∧
      (∀ k, k < n → ∀ q, q < R * C → d[o + R * C * k + q]? = v.data[o + R * C * k + prev R C q]?) ∧
      (∀ p, p < o ∨ o + n * (R * C) ≤ p → d[p]? = v.data[p]?) := by
  obtain ⟨d, e, g1, g2, g3⟩ := broadcastIn_eq hn hR hC fuel hfuel hs hl
  refine ⟨d, ?_, g1, g2, g3⟩
  unfold transposeInPlace
  rw [vectorOf_real hk, e, hs.ip hip, hs.dim]
  simp only [Outcome.bind_ok]
  have hRb : (R : Int) ≤ ((n * (R * C) : Nat) : Int) := by
    have : R ≤ n * (R * C) := by
      calc R = R * 1 := by omega
        _ ≤ R * C := Nat.mul_le_mul_left _ hC
        _ = 1 * (R * C) := by omega
        _ ≤ n * (R * C) := Nat.mul_le_mul_right _ hn0
    exact_mod_cast this
  rw [swapDims_eq o lead R C ⟨by omega, by omega⟩]
  rfl

open ViewSpec in
theorem getAll_block {w : Arr α} {o : Nat} {lead : List Int} {R C : Nat}
    (hw : HasShape w o (lead ++ [(R : Int), (C : Int)])) (hs : (lead ++ [(R : Int), (C : Int)]).prod + o < 2 ^ 31)
    (li : List Int) (hli : InRange lead li) (r c : Nat) (hr : r < R) (hc : c < C) :
    getAll w (li ++ [(r : Int), (c : Int)]) = load w.data ((o + R * C * (pos lead li).toNat + (r * C + c) : Nat) : Int) := by
  have h2 : InRange [(R : Int), (C : Int)] [(r : Int), (c : Int)] := ⟨by omega, by omega, by omega, by omega, trivial⟩
  obtain ⟨h3, h4⟩ := InRange.append hli h2
  have hp := InRange.pos_range hli
  have e : (o : Int) + pos (lead ++ [(R : Int), (C : Int)]) (li ++ [(r : Int), (c : Int)]) =
      ((o + R * C * (pos lead li).toNat + (r * C + c) : Nat) : Int) := by
    rw [h4]
    push_cast
    rw [Int.toNat_of_nonneg hp.1]
    simp [pos]; ring
  have hget : ∀ idx, InRange (lead ++ [(R : Int), (C : Int)]) idx →
      getAll w idx = load w.data (o + pos (lead ++ [(R : Int), (C : Int)]) idx) := by
    intro idx hi
    cases idx with
    | nil => cases lead <;> cases hi
    | cons i is =>
      have := hw.get_eq (by omega) hs i is [] hi
      rw [List.append_nil] at this
      exact this
  rw [hget _ h3, e]

theorem prod_nonneg_cast {l : List Int} (h : ∀ d ∈ l, 0 < d) : ∃ n : Nat, l.prod = n ∧ 0 < n :=
  ⟨l.prod.toNat, by have := View.prod_pos h; omega, by have := View.prod_pos h; omega⟩

/-- The whole of `transpose(v)`. -/
theorem transposeNew_eq {v : Arr α} {o n : Nat} {lead : List Int} {R C : Nat} (hn : lead.prod = n) (hlead : ∀ d ∈ lead, 0 < d)
    (hR : 0 < R) (hC : 0 < C) (hs : HasShape v o (lead ++ [(R : Int), (C : Int)])) (hl : o + n * (R * C) ≤ v.data.length)
    (hbound : ((n * (R * C) : Nat) : Int) < 2 ^ 31) {t : Kind} (ht : t = .float ∨ t = .double) {junk : List α}
    (hjl : junk.length = n * (R * C)) :
    ∃ d, transposeNew t junk v = .ok ⟨d, some (0 :: flat (lead ++ [(C : Int), (R : Int)]))⟩ ∧ d.length = n * (R * C) ∧
      (∀ k, k < n → ∀ q, q < R * C → d[R * C * k + q]? = v.data[o + R * C * k + prev R C q]?) ∧
      HasShape (⟨d, some (0 :: flat (lead ++ [(C : Int), (R : Int)]))⟩ : Arr α) 0 (lead ++ [(C : Int), (R : Int)]) := by
  have hprod' : (lead ++ [(C : Int), (R : Int)]).prod = ((n * (R * C) : Nat) : Int) := by
    rw [List.prod_append, hn]; push_cast; simp [mul_comm]
  have hpos : ∀ d ∈ lead ++ [(C : Int), (R : Int)], 0 < d := by
    intro d hd
    simp only [List.mem_append, List.mem_cons, List.not_mem_nil, or_false] at hd
    rcases hd with h | rfl | rfl
    · exact hlead d h
    · omega
    · omega
  -- the new array
  have hnew : newView (lead ++ [(C : Int), (R : Int)]) junk =
      .ok ⟨junk, some (0 :: flat (lead ++ [(C : Int), (R : Int)]))⟩ := by
    have hm := view_make (a := ⟨junk, none⟩) (sh := lead ++ [(C : Int), (R : Int)]) (off := 0) (b := 0) rfl
      (by omega) (by simp) (fits_of_pos hpos (by rw [hprod']; exact hbound)) (by show (junk.length : Int) < _; omega)
      (by rw [hprod']; omega) (by rw [hprod']; show _ ≤ (junk.length : Int); omega)
    exact hm
  have hout : HasShape (⟨junk, some (0 :: flat (lead ++ [(C : Int), (R : Int)]))⟩ : Arr α) 0 (lead ++ [(C : Int), (R : Int)]) :=
    .view _ _ rfl (fits_of_pos hpos (by rw [hprod']; exact hbound)) (by simp)
  obtain ⟨d, e, g1, g2⟩ := broadcastOut_eq hn hR hC hs hl hout hjl
  have hw : HasShape (⟨d, some (0 :: flat (lead ++ [(C : Int), (R : Int)]))⟩ : Arr α) 0 (lead ++ [(C : Int), (R : Int)]) :=
    .view _ _ rfl (fits_of_pos hpos (by rw [hprod']; exact hbound)) (by simp)
  refine ⟨d, ?_, g1, g2, hw⟩
  · unfold transposeNew
    have h1 : shapeLoop v 0 (lead ++ [(R : Int), (C : Int)]).length = _ := hs.shapeLoop [] _ rfl
    rw [hs.dim, h1]
    simp only [Outcome.bind_ok]
    rw [if_neg (by simp)]
    have hlen : (lead ++ [(R : Int), (C : Int)]).length = lead.length + 2 := by simp
    rw [hlen]
    rw [show lead.length + 2 - 1 = (lead ++ [(R : Int)]).length by simp, show lead.length + 2 - 2 = lead.length by omega]
    have q1 : lead ++ [(R : Int), (C : Int)] = (lead ++ [(R : Int)]) ++ (C : Int) :: [] := by simp
    rw [show ipGet (lead ++ [(R : Int), (C : Int)]) (lead ++ [(R : Int)]).length = .ok (C : Int) by
      unfold ipGet; rw [q1, getElem?_length_append]]
    simp only [Outcome.bind_ok]
    rw [show ipGet (lead ++ [(R : Int), (C : Int)]) lead.length = .ok (R : Int) by
      unfold ipGet; rw [getElem?_length_append]]
    simp only [Outcome.bind_ok]
    rw [show ipSet (lead ++ [(R : Int), (C : Int)]) (lead ++ [(R : Int)]).length (R : Int) =
        .ok (lead ++ [(R : Int), (R : Int)]) by
      unfold ipSet; rw [if_pos (by simp), q1, set_length_append]; simp]
    simp only [Outcome.bind_ok]
    rw [show (lead ++ [(R : Int), (R : Int)]).length - 2 = lead.length by simp]
    rw [show ipSet (lead ++ [(R : Int), (R : Int)]) lead.length (C : Int) = .ok (lead ++ [(C : Int), (R : Int)]) by
      unfold ipSet; rw [if_pos (by simp), set_length_append]]
    simp only [Outcome.bind_ok]
    rw [hnew]
    simp only [Outcome.bind_ok]
    rw [vectorOf_real ht, e]
    rfl

end Libube.Transpose

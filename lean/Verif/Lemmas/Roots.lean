import Verif.Model.Roots
import Verif.Spec.Roots
import Verif.Lemmas.Rows
import Mathlib.Tactic.Ring
import Mathlib.Tactic.FieldSimp
import Mathlib.Tactic.LinearCombination

/-! # Lemmas for roots -/

namespace Libube.Roots

open View Transpose ViewSpec RootsSpec

theorem flat_inj {n r c r' c' : Nat} (hc : c < n) (hc' : c' < n) : r * n + c = r' * n + c' ↔ r = r' ∧ c = c' := by
  constructor
  · intro h
    have h1 : (r * n + c) % n = c := by rw [Nat.mul_comm, Nat.mul_add_mod, Nat.mod_eq_of_lt hc]
    have h2 : (r' * n + c') % n = c' := by rw [Nat.mul_comm, Nat.mul_add_mod, Nat.mod_eq_of_lt hc']
    have : c = c' := by rw [← h1, h, h2]
    subst this
    refine ⟨?_, rfl⟩
    exact Nat.eq_of_mul_eq_mul_right (by omega) (Nat.add_right_cancel h)
  · rintro ⟨rfl, rfl⟩; rfl

theorem flat_lt {n r c : Nat} (hr : r < n) (hc : c < n) : r * n + c < n * n := by
  calc r * n + c < (r + 1) * n := by rw [Nat.add_mul]; omega
    _ ≤ n * n := Nat.mul_le_mul_right _ hr

/-- A square matrix with the elements `F`. -/
structure Sq (a : Arr α) (n : Nat) (F : Nat → Nat → α) : Prop where
  shape : HasShape a 0 [(n : Int), (n : Int)]
  len : a.data.length = n * n
  bound : n * n < 2147483648
  elem : ∀ r, r < n → ∀ c, c < n → a.data[r * n + c]? = some (F r c)

theorem setElem_eq {a : Arr α} {n : Nat} {F : Nat → Nat → α} (h : Sq a n F) {r c : Nat} (hr : r < n) (hc : c < n) (x : α) :
    ∃ a', setElem a (r : Int) [(c : Int)] x = .ok a' ∧ Sq a' n (fun r' c' => if r' = r ∧ c' = c then x else F r' c') := by
  have hlt := flat_lt hr hc
  have hb := h.bound
  have hin : InRange [(n : Int), (n : Int)] [(r : Int), (c : Int)] := ⟨by omega, by omega, by omega, by omega, trivial⟩
  have hp : pos [(n : Int), (n : Int)] [(r : Int), (c : Int)] = ((r * n + c : Nat) : Int) := by simp [pos]
  have hi := h.shape.index_ok (r : Int) [(c : Int)] [] hin
  rw [List.append_nil, hp] at hi
  refine ⟨{ a with data := a.data.set (r * n + c) x }, ?_, ⟨?_, by simp [h.len], hb, ?_⟩⟩
  · unfold setElem locate
    rw [hi, Outcome.bind_ok, h.shape.offset, Outcome.bind_ok, add_zero, cint_ok (by omega), Outcome.bind_ok]
    have := store_nat (data := a.data) (b := 0) (k := r * n + c) x (by rw [h.len]; omega)
    simp only [Nat.zero_add, Nat.cast_zero, zero_add] at this
    rw [this]
    rfl
  · have hsh := h.shape
    generalize hS : [(n : Int), (n : Int)] = S at hsh
    cases hsh with
    | view _ _ h1 h2 h3 => subst hS; exact .view _ _ h1 h2 h3
    | plain h1 h2 => exact absurd hS (by simp)
  · intro r' hr' c' hc'
    show (a.data.set (r * n + c) x)[r' * n + c']? = _
    by_cases e : r' = r ∧ c' = c
    · obtain ⟨rfl, rfl⟩ := e
      rw [List.getElem?_set_self (by rw [h.len]; exact hlt), if_pos ⟨rfl, rfl⟩]
    · rw [List.getElem?_set_ne (fun q => e (((flat_inj hc' hc).mp q.symm))), if_neg e, h.elem r' hr' c' hc']

theorem Sq.congr {a : Arr α} {n : Nat} {F G : Nat → Nat → α} (h : Sq a n F) (e : ∀ r, r < n → ∀ c, c < n → F r c = G r c) : Sq a n G :=
  ⟨h.shape, h.len, h.bound, fun r hr c hc => by rw [h.elem r hr c hc, e r hr c hc]⟩

theorem lastCol_eq [Field α] {n : Nat} : ∀ (k r : Nat) (a : Arr α) (F : Nat → Nat → α), Sq a n F → r + k = n → 0 < n →
    ∃ a', lastCol (n : Int) r k a = .ok a' ∧ Sq a' n (fun r' c' => if r ≤ r' ∧ c' = n - 1 then 0 else F r' c')
  | 0, r, a, F, h, hk, hn => ⟨a, rfl, h.congr fun r' hr' c' hc' => by rw [if_neg (by omega)]⟩
  | k + 1, r, a, F, h, hk, hn => by
    obtain ⟨a1, e1, h1⟩ := setElem_eq h (r := r) (c := n - 1) (by omega) (by omega) 0
    obtain ⟨a2, e2, h2⟩ := lastCol_eq k (r + 1) a1 _ h1 (by omega) hn
    refine ⟨a2, ?_, h2.congr fun r' hr' c' hc' => ?_⟩
    · rw [lastCol, show (n : Int) - 1 = ((n - 1 : Nat) : Int) by omega, e1]
      exact e2
    · by_cases e : c' = n - 1
      · by_cases g : r' = r
        · subst g; simp [e]
        · by_cases g' : r ≤ r'
          · rw [if_pos ⟨by omega, e⟩, if_pos ⟨g', e⟩]
          · rw [if_neg (by omega), if_neg (by omega), if_neg (by omega)]
      · rw [if_neg (by omega), if_neg (by omega), if_neg (by omega)]

theorem subRow_eq [Field α] {n r : Nat} (hr : r + 1 < n) : ∀ (k c : Nat) (a : Arr α) (F : Nat → Nat → α), Sq a n F → c + k = n - 1 →
    ∃ a', subRow r c k a = .ok a' ∧
      Sq a' n (fun r' c' => if r' = r + 1 ∧ c ≤ c' ∧ c' < n - 1 then (if r = c' then 1 else 0) else F r' c')
  | 0, c, a, F, h, hk => ⟨a, rfl, h.congr fun r' hr' c' hc' => by rw [if_neg (by omega)]⟩
  | k + 1, c, a, F, h, hk => by
    obtain ⟨a1, e1, h1⟩ := setElem_eq h (r := r + 1) (c := c) (by omega) (by omega) (if r = c then (1 : α) else 0)
    obtain ⟨a2, e2, h2⟩ := subRow_eq hr k (c + 1) a1 _ h1 (by omega)
    refine ⟨a2, ?_, h2.congr fun r' hr' c' hc' => ?_⟩
    · rw [subRow, e1]
      exact e2
    · by_cases e : r' = r + 1
      · by_cases g : c' = c
        · subst g
          rw [if_neg (by omega), if_pos ⟨e, rfl⟩, if_pos (show r' = r + 1 ∧ c' ≤ c' ∧ c' < n - 1 by omega)]
        · by_cases g' : c ≤ c' ∧ c' < n - 1
          · rw [if_pos (by omega), if_pos (show r' = r + 1 ∧ c ≤ c' ∧ c' < n - 1 by omega)]
          · rw [if_neg (by omega), if_neg (by omega), if_neg (by omega)]
      · rw [if_neg (by omega), if_neg (by omega), if_neg (by omega)]

theorem subRows_eq [Field α] {n : Nat} (hn : 0 < n) : ∀ (k r : Nat) (a : Arr α) (F : Nat → Nat → α), Sq a n F → r + k = n - 1 →
    ∃ a', subRows (n : Int) r k a = .ok a' ∧
      Sq a' n (fun r' c' => if r < r' ∧ c' < n - 1 then (if r' = c' + 1 then 1 else 0) else F r' c')
  | 0, r, a, F, h, hk => ⟨a, rfl, h.congr fun r' hr' c' hc' => by rw [if_neg (by omega)]⟩
  | k + 1, r, a, F, h, hk => by
    obtain ⟨a1, e1, h1⟩ := subRow_eq (r := r) (by omega) (n - 1) 0 a F h (by omega)
    obtain ⟨a2, e2, h2⟩ := subRows_eq hn k (r + 1) a1 _ h1 (by omega)
    refine ⟨a2, ?_, h2.congr fun r' hr' c' hc' => ?_⟩
    · rw [subRows, show ((n : Int) - 1).toNat = n - 1 by omega, e1]
      exact e2
    · by_cases e : c' < n - 1
      · by_cases g : r' = r + 1
        · subst g
          rw [if_neg (by omega), if_pos (show r + 1 = r + 1 ∧ 0 ≤ c' ∧ c' < n - 1 by omega), if_pos (show r < r + 1 ∧ c' < n - 1 by omega)]
          by_cases q : r = c'
          · rw [if_pos q, if_pos (by omega)]
          · rw [if_neg q, if_neg (by omega)]
        · by_cases g' : r < r'
          · rw [if_pos (by omega), if_pos (show r < r' ∧ c' < n - 1 by omega)]
          · rw [if_neg (by omega), if_neg (by omega), if_neg (by omega)]
      · rw [if_neg (by omega), if_neg (by omega), if_neg (by omega)]

theorem topRow_eq [Field α] {n : Nat} {p : Arr α} {x : Nat → α} (hx : ∀ k, k ≤ n → get p (k : Int) [] = .ok (x k)) :
    ∀ (k c : Nat) (a : Arr α) (F : Nat → Nat → α), Sq a n F → c + k = n →
      ∃ a', topRow p c k a = .ok a' ∧ Sq a' n (fun r' c' => if r' = 0 ∧ c ≤ c' then x (c' + 1) / x 0 * -1 else F r' c')
  | 0, c, a, F, h, hk => ⟨a, rfl, h.congr fun r' hr' c' hc' => by rw [if_neg (by omega)]⟩
  | k + 1, c, a, F, h, hk => by
    obtain ⟨a1, e1, h1⟩ := setElem_eq h (r := 0) (c := c) (by omega) (by omega) (x (c + 1) / x 0 * -1)
    obtain ⟨a2, e2, h2⟩ := topRow_eq hx k (c + 1) a1 _ h1 (by omega)
    have h0 := hx 0 (by omega)
    simp only [Nat.cast_zero] at h0 e1
    refine ⟨a2, ?_, h2.congr fun r' hr' c' hc' => ?_⟩
    · rw [topRow, hx (c + 1) (by omega), h0]
      simp only [Outcome.bind_ok]
      rw [e1]
      exact e2
    · by_cases e : r' = 0
      · by_cases g : c' = c
        · subst g
          rw [if_neg (by omega), if_pos ⟨e, rfl⟩, if_pos (by omega)]
        · by_cases g' : c ≤ c'
          · rw [if_pos (by omega), if_pos (by omega)]
          · rw [if_neg (by omega), if_neg (by omega), if_neg (by omega)]
      · rw [if_neg (by omega), if_neg (by omega), if_neg (by omega)]

/-- The elements of the companion matrix by row and column. -/
def comp [Field α] (x : Nat → α) (r c : Nat) : α :=
  if r = 0 then x (c + 1) / x 0 * -1 else if r = c + 1 then 1 else 0

theorem companion_eq [Field α] {n : Nat} (hn : 2 ≤ n) (hb : n * n < 2147483648) {p : Arr α} {x : Nat → α} {o : Nat}
    (hs : HasShape p (o : Int) [((n + 1 : Nat) : Int)]) (hl : o + (n + 1) ≤ p.data.length) (hm : p.data.length < 2147483648)
    (hx : ∀ k, k ≤ n → p.data[o + k]? = some (x k)) :
    ∃ a, companion (n : Int) p = .ok a ∧ Sq a n (comp x) := by
  have hx' : ∀ k, k ≤ n → get p (k : Int) [] = .ok (x k) := by
    intro k hk
    have hin : InRange [((n + 1 : Nat) : Int)] [(k : Int)] := ⟨by omega, by omega, trivial⟩
    have := hs.get_eq (by omega) (by rw [List.prod_singleton]; omega) (k : Int) [] [] hin
    rw [List.append_nil] at this
    rw [this]
    have hp : pos [((n + 1 : Nat) : Int)] [(k : Int)] = (k : Int) := by simp [pos]
    rw [hp]
    exact load_nat (hx k hk)
  have h4 : 1 < n * n := by
    calc 1 < 2 * 2 := by omega
      _ ≤ n * n := Nat.mul_le_mul hn hn
  have hf : Fits [(n : Int), (n : Int)] := fits_of_pos (by intro d hd; simp at hd; omega) (by
    rw [List.prod_cons, List.prod_singleton, ← Nat.cast_mul]; omega)
  have e1 : View.view (⟨List.replicate (n * n) (x 0), none⟩ : Arr α) [(n : Int), (n : Int)] 0 =
      .ok ⟨List.replicate (n * n) (x 0), some (0 :: flat [(n : Int), (n : Int)])⟩ :=
    view_make (a := ⟨List.replicate (n * n) (x 0), none⟩) (off := 0) (b := 0) rfl (by omega) (by simp) hf
      (by simp only [List.length_replicate]; omega) (by rw [List.prod_cons, List.prod_singleton, ← Nat.cast_mul]; omega)
      (by rw [List.prod_cons, List.prod_singleton, ← Nat.cast_mul]; simp)
  have hsq : Sq (⟨List.replicate (n * n) (x 0), some (0 :: flat [(n : Int), (n : Int)])⟩ : Arr α) n (fun _ _ => x 0) :=
    ⟨.view _ _ rfl hf (by simp), by simp, hb, fun r hr c hc => by
      show (List.replicate (n * n) (x 0))[r * n + c]? = _
      rw [List.getElem?_replicate, if_pos (flat_lt hr hc)]⟩
  obtain ⟨a1, f1, h1⟩ := lastCol_eq (n - 1) 1 _ _ hsq (by omega) (by omega)
  obtain ⟨a2, f2, h2⟩ := subRows_eq (by omega) (n - 1) 0 a1 _ h1 (by omega)
  obtain ⟨a3, f3, h3⟩ := topRow_eq hx' n 0 a2 _ h2 (by omega)
  refine ⟨a3, ?_, h3.congr fun r hr c hc => ?_⟩
  · unfold companion locate
    rw [← Nat.cast_mul, cint_ok (by omega), Outcome.bind_ok, hs.offset, Outcome.bind_ok, zero_add, cint_ok (by omega), Outcome.bind_ok]
    have h0 : load p.data (o : Int) = .ok (x 0) := by
      have := load_nat (b := o) (k := 0) (hx 0 (by omega))
      simpa using this
    rw [h0]
    simp only [Outcome.bind_ok]
    rw [show fillArr ((n * n : Nat) : Int) (x 0) = some ⟨List.replicate (n * n) (x 0), none⟩ by
      unfold fillArr; rw [if_pos (by omega), Int.toNat_natCast]]
    simp only []
    rw [e1]
    simp only [Outcome.bind_ok]
    rw [show ((n : Int) - 1).toNat = n - 1 by omega, f1]
    simp only [Outcome.bind_ok]
    rw [f2]
    simp only [Outcome.bind_ok, Int.toNat_natCast]
    exact f3
  · unfold comp
    by_cases e : r = 0
    · rw [if_pos (by omega), if_pos e]
    · rw [if_neg (by omega), if_neg e]
      by_cases g : c < n - 1
      · rw [if_pos (by omega)]
      · rw [if_neg (by omega), if_pos (by omega), if_neg (by omega)]

/-- Horner's rule for the monic polynomial with the coefficients `-q`. -/
def horner [Field L] (q : Nat → L) (z : L) : Nat → L
  | 0 => 1
  | i + 1 => z * horner q z i - q i

theorem horner_sum [Field K] [Field L] (f : K →+* L) {p : Nat → K} (h0 : p 0 ≠ 0) (z : L) (n : Nat) :
    f (p 0) * horner (fun c => f (p (c + 1) / p 0 * -1)) z n = value f n p z := by
  have hf : f (p 0) ≠ 0 := (map_ne_zero f).mpr h0
  induction n with
  | zero => simp [horner, value]
  | succ n ih =>
    have key : f (p 0) * f (p (n + 1) / p 0 * -1) = -f (p (n + 1)) := by
      rw [← map_mul, show p 0 * (p (n + 1) / p 0 * -1) = -p (n + 1) by field_simp, map_neg]
    unfold value at ih ⊢
    rw [horner, mul_sub, key, ← mul_assoc, mul_comm (f (p 0)) z, mul_assoc, ih, Finset.sum_range_succ _ (n + 1), Finset.mul_sum]
    rw [Nat.sub_self, pow_zero, mul_one, sub_neg_eq_add]
    congr 1
    refine Finset.sum_congr rfl fun k hk => ?_
    have := Finset.mem_range.mp hk
    rw [show n + 1 - k = (n - k) + 1 by omega, pow_succ]
    ring

/-- The product of the column-major matrix with a vector. -/
theorem comp_mul [Field K] [Field L] (f : K →+* L) {p : Nat → K} {n : Nat} (v : Nat → L) {i : Nat} (hi : i < n) :
    ∑ j ∈ Finset.range n, f (comp p j i) * v j =
      f (p (i + 1) / p 0 * -1) * v 0 + if i + 1 < n then v (i + 1) else 0 := by
  obtain ⟨m, rfl⟩ : ∃ m, n = m + 1 := ⟨n - 1, by omega⟩
  rw [Finset.sum_range_succ']
  have h0 : comp p 0 i = p (i + 1) / p 0 * -1 := by unfold comp; rw [if_pos rfl]
  have hs : ∀ j, f (comp p (j + 1) i) * v (j + 1) = if j = i then v (i + 1) else 0 := by
    intro j
    unfold comp
    rw [if_neg (by omega)]
    by_cases e : j = i
    · subst e; simp
    · rw [if_neg (by omega), if_neg e]; simp
  rw [h0, add_comm]
  congr 1
  rw [Finset.sum_congr rfl fun j _ => hs j, Finset.sum_ite_eq']
  by_cases e : i + 1 < m + 1
  · rw [if_pos (by rw [Finset.mem_range]; omega), if_pos e]
  · rw [if_neg (by rw [Finset.mem_range]; omega), if_neg e]

theorem comp_eigen [Field K] [Field L] (f : K →+* L) {p : Nat → K} (h0 : p 0 ≠ 0) {n : Nat} (hn : 0 < n) (z : L) :
    Eigenvalue f n (fun i j => comp p j i) z ↔ value f n p z = 0 := by
  have hf : f (p 0) ≠ 0 := (map_ne_zero f).mpr h0
  rw [← horner_sum f h0 z n, mul_eq_zero, or_iff_right hf]
  constructor
  · rintro ⟨v, ⟨i0, hi0, hv⟩, h⟩
    have hv' : ∀ i, i < n → v i = horner (fun c => f (p (c + 1) / p 0 * -1)) z i * v 0 := by
      intro i
      induction i with
      | zero => intro _; simp [horner]
      | succ i ih =>
        intro hi
        have e := h i (by omega)
        rw [comp_mul f v (by omega), if_pos hi, ih (by omega)] at e
        rw [horner]
        linear_combination e
    have hv0 : v 0 ≠ 0 := by
      intro e
      exact hv (by rw [hv' i0 hi0, e, mul_zero])
    obtain ⟨m, rfl⟩ : ∃ m, n = m + 1 := ⟨n - 1, by omega⟩
    have e := h m (by omega)
    rw [comp_mul f v (by omega), if_neg (by omega), hv' m (by omega)] at e
    have : horner (fun c => f (p (c + 1) / p 0 * -1)) z (m + 1) * v 0 = 0 := by
      rw [horner]
      linear_combination -e
    exact (mul_eq_zero.mp this).resolve_right hv0
  · intro h
    refine ⟨fun i => horner (fun c => f (p (c + 1) / p 0 * -1)) z i, ⟨0, hn, by simp [horner]⟩, fun i hi => ?_⟩
    rw [comp_mul f _ hi]
    by_cases e : i + 1 < n
    · rw [if_pos e, horner, horner]
      ring
    · rw [if_neg e]
      obtain rfl : n = i + 1 := by omega
      rw [horner] at h
      rw [horner]
      linear_combination -h

end Libube.Roots

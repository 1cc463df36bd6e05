import Verif.Lemmas.Rows
import Verif.Spec.Dot
import Verif.Model.Dot
import Mathlib.Algebra.BigOperators.Intervals
import Mathlib.Algebra.BigOperators.Fin

/-! # Lemmas on inner products and matrix multiplication -/

namespace Libube.Dot

open View Transpose RowsSpec

theorem load_at {d : List α} {i : Int} {n : Nat} {x : α} (hi : i = n) (h : d[n]? = some x) : load d i = .ok x := by
  subst hi
  unfold load
  rw [if_neg (by omega)]
  simp only [Int.toNat_natCast, h]

theorem store_at {d : List α} {i : Int} {n : Nat} (x : α) (hi : i = n) (h : n < d.length) : store d i x = .ok (d.set n x) := by
  subst hi
  unfold store
  rw [if_pos ⟨by omega, by omega⟩]
  simp only [Int.toNat_natCast]

theorem dotLoop_eq [Ring α] {conj : α → α} {xs ys : List α} {px py : Nat} {x y : Nat → α} :
    ∀ (n i : Nat) (acc : α), (∀ t, t < i + n → xs[px + t]? = some (x t)) → (∀ t, t < i + n → ys[py + t]? = some (y t)) →
      dotLoop conj xs (px : Int) ys (py : Int) i n acc = .ok (acc + ∑ t ∈ Finset.range n, conj (x (i + t)) * y (i + t))
  | 0, i, acc, _, _ => by simp [dotLoop]
  | n + 1, i, acc, hx, hy => by
    unfold dotLoop
    rw [load_at (n := px + i) (by push_cast; rfl) (hx i (by omega)), Outcome.bind_ok,
      load_at (n := py + i) (by push_cast; rfl) (hy i (by omega)), Outcome.bind_ok,
      dotLoop_eq n (i + 1) _ (fun t ht => hx t (by omega)) (fun t ht => hy t (by omega)), Finset.sum_range_succ', add_assoc]
    congr 2
    rw [add_comm]
    congr 1
    exact Finset.sum_congr rfl fun t _ => by rw [show i + 1 + t = i + (t + 1) by omega]

theorem gemmSum_eq [Ring α] {as bs : List α} {pa lda pb ldb i j : Nat} {x y : Nat → α} :
    ∀ (n l : Nat) (acc : α), (∀ t, t < l + n → as[pa + (i + lda * t)]? = some (x t)) → (∀ t, t < l + n → bs[pb + (t + ldb * j)]? = some (y t)) →
      gemmSum as (pa : Int) (lda : Int) bs (pb : Int) (ldb : Int) i j l n acc = .ok (acc + ∑ t ∈ Finset.range n, x (l + t) * y (l + t))
  | 0, l, acc, _, _ => by simp [gemmSum]
  | n + 1, l, acc, hx, hy => by
    unfold gemmSum
    rw [load_at (n := pa + (i + lda * l)) (by push_cast; rfl) (hx l (by omega)), Outcome.bind_ok,
      load_at (n := pb + (l + ldb * j)) (by push_cast; rfl) (hy l (by omega)), Outcome.bind_ok,
      gemmSum_eq n (l + 1) _ (fun t ht => hx t (by omega)) (fun t ht => hy t (by omega)), Finset.sum_range_succ', add_assoc]
    congr 2
    rw [add_comm]
    congr 1
    exact Finset.sum_congr rfl fun t _ => by rw [show l + 1 + t = l + (t + 1) by omega]

theorem gemmCol_eq [Ring α] {as bs : List α} {k pa lda pb ldb pc ldc j m : Nat} {x : Nat → Nat → α} {y : Nat → α}
    (hx : ∀ i, i < m → ∀ t, t < k → as[pa + (i + lda * t)]? = some (x i t)) (hy : ∀ t, t < k → bs[pb + (t + ldb * j)]? = some (y t))
    (c0 : List α) (hc : pc + ldc * j + m ≤ c0.length) :
    ∀ (n i : Nat) (c : List α), i + n = m → Wrote c0 c (pc + ldc * j) i (fun i => ∑ t ∈ Finset.range k, x i t * y t) →
      ∃ c', gemmCol k as (pa : Int) (lda : Int) bs (pb : Int) (ldb : Int) (pc : Int) (ldc : Int) j i n c = .ok c' ∧
        Wrote c0 c' (pc + ldc * j) m (fun i => ∑ t ∈ Finset.range k, x i t * y t)
  | 0, i, c, hm, h => ⟨c, rfl, by rw [← hm]; exact h⟩
  | n + 1, i, c, hm, h => by
    have h1 := gemmSum_eq (as := as) (bs := bs) (pa := pa) (lda := lda) (pb := pb) (ldb := ldb) (i := i) (j := j) (x := x i) (y := y) k 0 0
      (fun t ht => hx i (by omega) t (by omega)) (fun t ht => hy t (by omega))
    simp only [Nat.zero_add, zero_add] at h1
    obtain ⟨c', e, w⟩ := gemmCol_eq hx hy c0 hc n (i + 1) (c.set (pc + ldc * j + i) (∑ t ∈ Finset.range k, x i t * y t)) (by omega)
      ((h.extend (by omega) _).congr (fun q hq => by by_cases hq' : q = i <;> simp [hq']))
    refine ⟨c', ?_, w⟩
    unfold gemmCol
    rw [h1, Outcome.bind_ok, store_at (n := pc + ldc * j + i) _ (by push_cast; ring) (by rw [h.1]; omega), Outcome.bind_ok]
    exact e

/-- All columns. -/
theorem gemmCols_eq [Ring α] {as bs : List α} {m k pa lda pb ldb pc ldc N : Nat} {x : Nat → Nat → α} {y : Nat → Nat → α} (hm : m ≤ ldc)
    (hx : ∀ i, i < m → ∀ t, t < k → as[pa + (i + lda * t)]? = some (x i t)) (hy : ∀ j, j < N → ∀ t, t < k → bs[pb + (t + ldb * j)]? = some (y t j)) :
    ∀ (n j : Nat) (c : List α), j + n = N → pc + ldc * N ≤ c.length →
      ∃ c', gemmCols m k as (pa : Int) (lda : Int) bs (pb : Int) (ldb : Int) (pc : Int) (ldc : Int) j n c = .ok c' ∧ c'.length = c.length ∧
        (∀ j', j ≤ j' → j' < N → ∀ i, i < m → c'[pc + ldc * j' + i]? = some (∑ t ∈ Finset.range k, x i t * y t j')) ∧
        ∀ q, q < pc + ldc * j ∨ pc + ldc * N ≤ q → c'[q]? = c[q]?
  | 0, j, c, hj, _ => ⟨c, rfl, rfl, fun j' h1 h2 => by omega, fun _ _ => rfl⟩
  | n + 1, j, c, hj, hc => by
    have hjN : ldc * j + ldc ≤ ldc * N := by
      calc ldc * j + ldc = ldc * (j + 1) := by ring
        _ ≤ ldc * N := Nat.mul_le_mul_left _ (by omega)
    obtain ⟨c1, e1, w1, w2, w3⟩ := gemmCol_eq (k := k) (pa := pa) (lda := lda) (pb := pb) (ldb := ldb) (pc := pc) (ldc := ldc) (j := j) (y := fun t => y t j) hx
      (fun t ht => hy j (by omega) t ht) c (by omega) m 0 c (by omega) (Wrote.zero _ _ _)
    obtain ⟨c2, e2, l2, g2, r2⟩ := gemmCols_eq (pc := pc) hm hx hy n (j + 1) c1 (by omega) (by omega)
    refine ⟨c2, ?_, by omega, fun j' h1 h2 i hi => ?_, fun q hq => ?_⟩
    · unfold gemmCols
      rw [e1, Outcome.bind_ok]
      exact e2
    · by_cases hjj : j' = j
      · subst hjj
        rw [r2 _ (.inl (by rw [Nat.mul_add]; omega))]
        exact w2 i hi
      · exact g2 j' (by omega) h2 i hi
    · rw [r2 q (by rw [Nat.mul_add]; omega)]
      exact w3 q (by omega)

/-- `blas::gemm` on matrices stored by rows. -/
theorem gemm_eq [Ring α] {as bs c : List α} {m n k pa pb pc : Nat} {x : Nat → Nat → α} {y : Nat → Nat → α} (hn : 0 < n) (hk : 0 < k)
    (hx : ∀ i, i < m → ∀ t, t < k → as[pa + k * i + t]? = some (x i t)) (hy : ∀ t, t < k → ∀ j, j < n → bs[pb + n * t + j]? = some (y t j))
    (hc : pc + m * n ≤ c.length) :
    ∃ c', gemm m n k as (pa : Int) bs (pb : Int) c (pc : Int) = .ok c' ∧ c'.length = c.length ∧
      (∀ i, i < m → ∀ j, j < n → c'[pc + n * i + j]? = some (∑ t ∈ Finset.range k, y t j * x i t)) ∧
      ∀ q, q < pc ∨ pc + m * n ≤ q → c'[q]? = c[q]? := by
  obtain ⟨c', e, l, g, r⟩ := gemmCols_eq (as := bs) (bs := as) (m := n) (k := k) (pa := pb) (lda := n) (pb := pa) (ldb := k) (pc := pc) (ldc := n) (N := m)
    (x := fun j t => y t j) (y := fun t i => x i t) (le_refl n)
    (fun j hj t ht => by rw [show pb + (j + n * t) = pb + n * t + j by ring]; exact hy t ht j hj)
    (fun i hi t ht => by rw [show pa + (t + k * i) = pa + k * i + t by ring]; exact hx i hi t ht) m 0 c (by omega) (by rw [Nat.mul_comm]; exact hc)
  refine ⟨c', ?_, l, fun i hi j hj => g i (by omega) hi j hj, fun q hq => r q ?_⟩
  · unfold gemm gemmF
    rw [if_neg (by omega)]
    exact e
  · rw [Nat.mul_comm n m]; omega

end Libube.Dot

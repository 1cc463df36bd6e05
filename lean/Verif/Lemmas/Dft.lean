import Verif.Lemmas.DftSum
import Verif.Lemmas.Reduce

/-! # Lemmas about the discrete Fourier transform -/

namespace Libube.Dft

open View Transpose Rows Reduce RowsSpec ReduceSpec ViewSpec

theorem readRow_eq {src : List α} {p : Nat} : ∀ (row : List α) (i : Nat), (∀ t, t < row.length → src[p + (i + t)]? = row[t]?) →
    readRow src (p : Int) i row.length = .ok row
  | [], _, _ => rfl
  | x :: row, i, h => by
    have h0 := h 0 (by simp)
    rw [List.length_cons, readRow, load_nat (b := p) (k := i) (x := x) (by simpa using h0), Outcome.bind_ok,
      readRow_eq row (i + 1) (fun t ht => by
        have := h (t + 1) (by simpa using ht)
        rw [show i + 1 + t = i + (t + 1) by omega, this]; simp)]
    rfl

/-- Reading past the end. -/
theorem readRow_short {src : List α} {p : Nat} : ∀ (n i : Nat), p + i ≤ src.length → src.length < p + i + n → readRow src (p : Int) i n = .ub .outOfBounds
  | 0, i, h1, h2 => by omega
  | n + 1, i, h1, h2 => by
    rw [readRow]
    by_cases hi : p + i < src.length
    · rw [load_nat (b := p) (k := i) (List.getElem?_eq_getElem hi), Outcome.bind_ok, readRow_short n (i + 1) (by omega) (by omega)]
      rfl
    · have : load src ((p : Int) + (i : Int)) = .ub .outOfBounds := by
        unfold load
        rw [if_neg (by omega), show ((p : Int) + (i : Int)).toNat = p + i by omega, List.getElem?_eq_none (by omega)]
      rw [this]
      rfl

theorem writeRow_eq {q : Nat} : ∀ (ys : List α) (i : Nat) (dst : List α), q + i + ys.length ≤ dst.length →
    ∃ d, writeRow (q : Int) i ys dst = .ok d ∧ d.length = dst.length ∧ (∀ t, t < ys.length → d[q + i + t]? = ys[t]?) ∧
      ∀ k, k < q + i ∨ q + i + ys.length ≤ k → d[k]? = dst[k]?
  | [], i, dst, _ => ⟨dst, rfl, rfl, fun t ht => absurd ht (by simp), fun _ _ => rfl⟩
  | y :: ys, i, dst, h => by
    rw [List.length_cons] at h
    obtain ⟨d, e, h1, h2, h3⟩ := writeRow_eq (q := q) ys (i + 1) (dst.set (q + i) y) (by rw [List.length_set]; omega)
    refine ⟨d, ?_, by simpa using h1, fun t ht => ?_, fun k hk => ?_⟩
    · rw [writeRow, store_nat _ (by omega), Outcome.bind_ok, e]
    · cases t with
      | zero =>
        rw [h3 (q + i + 0) (by omega)]
        simp only [Nat.add_zero]
        rw [List.getElem?_set_self (by omega)]
        rfl
      | succ t =>
        rw [show q + i + (t + 1) = q + (i + 1) + t by omega, h2 t (by simpa using ht)]
        rfl
    · rw [List.length_cons] at hk
      rw [h3 k (by omega), List.getElem?_set_ne (by omega)]

/-- Broadcasting a transform over rows; the rows of the input may be longer than what is read. -/
theorem rows_run {a : Arr α} {b : Arr β} {o o' : Nat} {n c w m r : Nat} {lead : List Int} {cnt : Nat → Nat} {f : Nat → List α → List β}
    (ha : HasShape a o (lead ++ [(c : Int)])) (hp : (lead ++ [(c : Int)]).prod + (o : Int) ≤ a.data.length) (hn : lead.prod = n) (hc : 0 < c)
    (hb : offset b = .ok (o' : Int)) (hstep : blockStep b 1 = .ok (w : Int)) (hroom : o' + n * w ≤ b.data.length)
    (hr : cnt m = r) (hrc : r ≤ c) (hf : ∀ row : List α, row.length = r → (f m row).length = w) :
    ∃ d, broadcastTo (vector (some m) cnt f a b) a b = .ok d ∧ d.length = b.data.length ∧
      (∀ i row, i < n → row.length = r → RowAt a.data (o + c * i) row → RowAt d (o' + w * i) (f m row)) ∧
      ∀ k, k < o' ∨ o' + n * w ≤ k → d[k]? = b.data[k]? := by
  obtain ⟨hra, hri⟩ := room hn hp
  have hbi := blockStep_eq ha
  simp only [List.length_singleton, List.prod_singleton] at hbi
  have hwi : ∀ i, i < n → w * i + w ≤ n * w := fun i hi => by
    calc w * i + w = w * (i + 1) := by ring
      _ ≤ w * n := Nat.mul_le_mul_left w hi
      _ = n * w := Nat.mul_comm w n
  obtain ⟨d, e, g1, g2, g3⟩ := blocks_eq (vector (some m) cnt f a b) (c : Int) (w : Int) o' w b.data.length
    (fun i _ q => (f m ((a.data.drop (o + c * i)).take r))[q]?) n
    (fun i hi dst hd => by
      have h1 := hri i hi
      have h2 := hwi i hi
      obtain ⟨k1, k2⟩ := rowAt_take (d := a.data) (p := o + c * i) (c := r) (by omega)
      have hlen := hf _ k2
      obtain ⟨d', e', f1, f2, f3⟩ := writeRow_eq (q := o' + w * i) (f m ((a.data.drop (o + c * i)).take r)) 0 dst (by omega)
      refine ⟨d', ?_, by omega, fun q hq => ?_, fun k hk => ?_⟩
      · unfold vector
        rw [ha.offset, hb]
        simp only [Outcome.bind_ok]
        have hrd := readRow_eq (src := a.data) (p := o + c * i) ((a.data.drop (o + c * i)).take r) 0 (fun t ht => by simpa using k1 t ht)
        rw [k2] at hrd
        rw [hr, show (o : Int) + (c : Int) * (i : Int) = ((o + c * i : Nat) : Int) by push_cast; rfl, hrd, Outcome.bind_ok,
          show (o' : Int) + (w : Int) * (i : Int) = ((o' + w * i : Nat) : Int) by push_cast; rfl]
        exact e'
      · exact f2 q (by omega)
      · refine f3 k ?_
        by_contra hcon
        exact hk (k - (o' + w * i)) (by omega) (by omega))
    (fun _ _ _ _ _ _ => rfl) 0 n (by omega) b.data rfl
  refine ⟨d, ?_, g1, fun i row hi hrow hat t ht => ?_, fun k hk => g3 k (fun j _ hj q hq hkq => ?_)⟩
  · unfold broadcastTo
    rw [if_neg (by rw [ha.dim]; simp), hbi, ha.size, hstep]
    simp only [Outcome.bind_ok]
    rw [if_neg (by omega), List.prod_append, hn, List.prod_singleton, tdiv_blocks n c hc]
    exact e
  · have h1 := hri i hi
    have hr' := rowAt_eq hat (by omega)
    rw [hrow] at hr'
    rw [hf row hrow] at ht
    rw [g2 i (by omega) hi t ht, ← hr']
  · have := hwi j hj
    omega

theorem divLoop_eq [Field α] {c : α} {p : Nat} : ∀ (n i : Nat) (d : List α), p + i + n ≤ d.length →
    ∃ d', divLoop c (p : Int) i n d = .ok d' ∧ d'.length = d.length ∧ (∀ k, p + i ≤ k → k < p + i + n → d'[k]? = d[k]?.map (· / c)) ∧
      ∀ k, k < p + i ∨ p + i + n ≤ k → d'[k]? = d[k]?
  | 0, i, d, _ => ⟨d, rfl, rfl, fun k h1 h2 => by omega, fun _ _ => rfl⟩
  | n + 1, i, d, h => by
    have hi : p + i < d.length := by omega
    obtain ⟨d', e, h1, h2, h3⟩ := divLoop_eq (c := c) (p := p) n (i + 1) (d.set (p + i) (d[p + i] / c)) (by rw [List.length_set]; omega)
    refine ⟨d', ?_, by simpa using h1, fun k k1 k2 => ?_, fun k hk => ?_⟩
    · rw [divLoop, load_nat (b := p) (k := i) (List.getElem?_eq_getElem hi), Outcome.bind_ok, store_nat _ hi, Outcome.bind_ok, e]
    · by_cases hk : k = p + i
      · subst hk
        rw [h3 (p + i) (by omega), List.getElem?_set_self hi, List.getElem?_eq_getElem hi]
        rfl
      · rw [h2 k (by omega) (by omega), List.getElem?_set_ne (by omega)]
    · rw [h3 k (by omega), List.getElem?_set_ne (by omega)]

theorem divide_eq [Field α] {b : Arr α} {o n w : Nat} {lead : List Int} {m : Nat} (hb : HasShape b o (lead ++ [(w : Int)])) (hn : lead.prod = n)
    (hroom : o + n * w ≤ b.data.length) :
    ∃ d', divide m b = .ok d' ∧ d'.length = b.data.length ∧ (∀ k, o ≤ k → k < o + n * w → d'[k]? = b.data[k]?.map (· / (m : α))) ∧
      ∀ k, k < o ∨ o + n * w ≤ k → d'[k]? = b.data[k]? := by
  obtain ⟨d', e, h1, h2, h3⟩ := divLoop_eq (c := (m : α)) (p := o) (n * w) 0 b.data (by omega)
  refine ⟨d', ?_, h1, fun k k1 k2 => h2 k (by omega) (by omega), fun k hk => h3 k (by omega)⟩
  unfold divide
  rw [hb.offset, hb.size, List.prod_append, hn, List.prod_singleton]
  simp only [Outcome.bind_ok]
  rw [show ((n : Int) * (w : Int)).toNat = n * w by rw [← Nat.cast_mul]; exact Int.toNat_natCast _]
  exact e

end Libube.Dft

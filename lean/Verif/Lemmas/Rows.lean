import Verif.Spec.Rows
import Verif.Lemmas.Transpose
import Mathlib.Algebra.Polynomial.Degree.Operations
import Mathlib.Algebra.Polynomial.BigOperators
import Mathlib.Algebra.Polynomial.Eval.Degree

/-! # Lemmas about functors along the last dimension -/

namespace Libube.Rows

open View Transpose RowsSpec ViewSpec

theorem _root_.Libube.RowsSpec.Shaped.shape {a : Arr α} {o sh} (h : Shaped a o sh) :
    HasShape a o sh ∧ sh.prod + o ≤ a.data.length ∧ (a.data.length : Int) < 2 ^ 31 := by
  cases h with
  | plain hi hl => exact ⟨.plain hi hl, by simp, hl⟩
  | view o sh hv hl =>
    obtain ⟨b, hb, _, hs, hp, _⟩ := view_shape hv
    cases hb
    simp only [Int.zero_add] at hs hp
    exact ⟨hs, hp, hl⟩

theorem _root_.Libube.RowsSpec.Wrote.zero (d : List α) (p : Nat) (v : Nat → α) : Wrote d d p 0 v :=
  ⟨rfl, fun j hj => absurd hj (by omega), fun _ _ => rfl⟩

theorem _root_.Libube.RowsSpec.Wrote.congr {d d' : List α} {p n : Nat} {v w : Nat → α} (h : Wrote d d' p n v)
    (e : ∀ j, j < n → v j = w j) : Wrote d d' p n w :=
  ⟨h.1, fun j hj => by rw [← e j hj]; exact h.2.1 j hj, h.2.2⟩

theorem _root_.Libube.RowsSpec.Wrote.set {d d' : List α} {p n k : Nat} {v : Nat → α} (h : Wrote d d' p n v) (hk : k < n) (x : α) :
    Wrote d (d'.set (p + k) x) p n (fun j => if j = k then x else v j) := by
  obtain ⟨h1, h2, h3⟩ := h
  have hlt : p + k < d'.length := (List.getElem?_eq_some_iff.mp (h2 k hk)).1
  refine ⟨by simp [h1], fun j hj => ?_, fun q hq => ?_⟩
  · by_cases e : j = k
    · subst e; simp [hlt]
    · rw [List.getElem?_set_ne (by omega), h2 j hj]; simp only [if_neg e]
  · rw [List.getElem?_set_ne (by omega)]; exact h3 q hq

theorem _root_.Libube.RowsSpec.Wrote.extend {d d' : List α} {p n : Nat} {v : Nat → α} (h : Wrote d d' p n v) (hn : p + n < d.length) (x : α) :
    Wrote d (d'.set (p + n) x) p (n + 1) (fun j => if j = n then x else v j) := by
  obtain ⟨h1, h2, h3⟩ := h
  have hlt : p + n < d'.length := by omega
  refine ⟨by simp [h1], fun j hj => ?_, fun q hq => ?_⟩
  · by_cases e : j = n
    · subst e; simp [hlt]
    · rw [List.getElem?_set_ne (by omega), h2 j (by omega)]; simp only [if_neg e]
  · rw [List.getElem?_set_ne (by omega)]; exact h3 q (by omega)

theorem polyInner_eq [Ring α] {src : List α} {si p M : Nat} {r : α} (hr : src[si]? = some r) (c : Nat → α) (d0 : List α) :
    ∀ (n j : Nat) (d : List α), j + n ≤ M →
      Wrote d0 d p (M + 1) (fun k => if 1 ≤ k ∧ k ≤ j then c k - r * c (k - 1) else c k) →
      ∃ d', polyInner src (si : Int) (p : Int) j n (c j) d = .ok d' ∧
        Wrote d0 d' p (M + 1) (fun k => if 1 ≤ k ∧ k ≤ j + n then c k - r * c (k - 1) else c k)
  | 0, j, d, _, h => ⟨d, rfl, h⟩
  | n + 1, j, d, hM, h => by
    have g := h.2.1 (j + 1) (by omega)
    simp only [] at g
    rw [if_neg (by omega)] at g
    have hlt : p + (j + 1) < d.length := (List.getElem?_eq_some_iff.mp g).1
    have h' := (h.set (k := j + 1) (by omega) (c (j + 1) - r * c j)).congr
      (w := fun k => if 1 ≤ k ∧ k ≤ j + 1 then c k - r * c (k - 1) else c k) (by
        intro k hk
        by_cases e : k = j + 1
        · subst e; simp
        · rw [if_neg e]
          by_cases e2 : 1 ≤ k ∧ k ≤ j
          · rw [if_pos e2, if_pos (by omega)]
          · rw [if_neg e2, if_neg (by omega)])
    obtain ⟨d', e', w'⟩ := polyInner_eq hr c d0 n (j + 1) _ (by omega) h'
    refine ⟨d', ?_, w'.congr (fun k _ => by rw [show j + 1 + n = j + (n + 1) by omega])⟩
    unfold polyInner
    rw [load_nat g]
    simp only [Outcome.bind_ok]
    have : load src (si : Int) = .ok r := by
      have := load_nat (b := si) (k := 0) hr
      simpa using this
    rw [this]
    simp only [Outcome.bind_ok]
    rw [store_nat _ hlt]
    exact e'

open Polynomial in
/-- The polynomial with the first `n` of the given roots. -/
noncomputable def fromRoots [CommRing α] (x : Nat → α) (n : Nat) : α[X] := ∏ t ∈ Finset.range n, (X - C (x t))

open Polynomial in
theorem fromRoots_succ [CommRing α] (x : Nat → α) (n : Nat) : fromRoots x (n + 1) = fromRoots x n * (X - C (x n)) := by
  unfold fromRoots; rw [Finset.prod_range_succ]

open Polynomial in
theorem fromRoots_top [CommRing α] (x : Nat → α) (n : Nat) : (fromRoots x n).coeff n = 1 ∧ ∀ k, n < k → (fromRoots x n).coeff k = 0 := by
  induction n with
  | zero =>
    unfold fromRoots
    simp only [Finset.range_zero, Finset.prod_empty]
    exact ⟨by simp, fun k hk => by rw [coeff_one, if_neg (by omega)]⟩
  | succ n ih =>
    rw [fromRoots_succ]
    refine ⟨?_, fun k hk => ?_⟩
    · rw [coeff_mul_X_sub_C, ih.1, ih.2 (n + 1) (by omega)]; simp
    · obtain ⟨k, rfl⟩ : ∃ m, k = m + 1 := ⟨k - 1, by omega⟩
      rw [coeff_mul_X_sub_C, ih.2 k (by omega), ih.2 (k + 1) (by omega)]; simp

open Polynomial in
theorem fromRoots_step [CommRing α] (x : Nat → α) (i k : Nat) (hk : k ≤ i + 1) :
    (fromRoots x (i + 1)).coeff (i + 1 - k) =
      if 1 ≤ k ∧ k ≤ i + 1 then
        (if k = i + 1 then 0 else (fromRoots x i).coeff (i - k)) -
          x i * (if k - 1 = i + 1 then 0 else (fromRoots x i).coeff (i - (k - 1)))
      else (if k = i + 1 then 0 else (fromRoots x i).coeff (i - k)) := by
  by_cases h0 : k = 0
  · subst h0
    rw [if_neg (by omega), if_neg (by omega)]
    rw [Nat.sub_zero, Nat.sub_zero, (fromRoots_top x (i + 1)).1, (fromRoots_top x i).1]
  · rw [if_pos (by omega), if_neg (show ¬ k - 1 = i + 1 by omega), fromRoots_succ]
    by_cases h1 : k = i + 1
    · subst h1
      rw [if_pos rfl]
      simp [mul_coeff_zero, mul_comm]
    · rw [if_neg h1, show i + 1 - k = (i - k) + 1 by omega, coeff_mul_X_sub_C, show i - (k - 1) = i - k + 1 by omega]
      ring

theorem polyOuter_eq [CommRing α] {src : List α} {si p N : Nat} {x : Nat → α} (hx : ∀ i, i < N → src[si + i]? = some (x i))
    (d0 : List α) (hroom : p + N < d0.length) :
    ∀ (n i : Nat) (d : List α), i + n = N → Wrote d0 d p (i + 1) (fun k => (fromRoots x i).coeff (i - k)) →
      ∃ d', polyOuter src (si : Int) (p : Int) i n d = .ok d' ∧ Wrote d0 d' p (N + 1) (fun k => (fromRoots x N).coeff (N - k))
  | 0, i, d, hN, h => ⟨d, rfl, by rw [← hN]; exact h⟩
  | n + 1, i, d, hN, h => by
    have hlen : p + (i + 1) < d0.length := by omega
    have h1 := h.extend hlen (0 : α)
    have g0 := h1.2.1 0 (by omega)
    simp only [Nat.add_zero] at g0
    have h2 := h1.congr (w := fun k => if 1 ≤ k ∧ k ≤ 0 then
        (fun k => if k = i + 1 then 0 else (fromRoots x i).coeff (i - k)) k - x i * (fun k => if k = i + 1 then 0 else (fromRoots x i).coeff (i - k)) (k - 1)
        else (fun k => if k = i + 1 then 0 else (fromRoots x i).coeff (i - k)) k) (by
      intro k hk
      have : ¬ (1 ≤ k ∧ k ≤ 0) := by omega
      rw [if_neg this])
    obtain ⟨d1, e1, w1⟩ := polyInner_eq (hx i (by omega)) (fun k => if k = i + 1 then 0 else (fromRoots x i).coeff (i - k)) d0
      (i + 1) 0 _ (by omega) h2
    have w1' := w1.congr (w := fun k => (fromRoots x (i + 1)).coeff (i + 1 - k)) (by
      intro k hk
      simp only [Nat.zero_add]
      exact (fromRoots_step x i k (by omega)).symm)
    obtain ⟨d', e', w'⟩ := polyOuter_eq hx d0 hroom n (i + 1) d1 (by omega) w1'
    refine ⟨d', ?_, w'⟩
    unfold polyOuter
    rw [store_nat _ (by rw [h.1]; exact hlen)]
    simp only [Outcome.bind_ok]
    rw [show load (d.set (p + (i + 1)) (0 : α)) (p : Int) = .ok (if 0 = i + 1 then (0 : α) else (fromRoots x i).coeff (i - 0)) by
      have := load_nat (b := p) (k := 0) g0
      simpa using this]
    simp only [Outcome.bind_ok]
    rw [show ((si : Int) + (i : Int)) = ((si + i : Nat) : Int) by push_cast; rfl, e1]
    exact e'

theorem polyt_eq [CommRing α] {src : List α} {si p N : Nat} {x : Nat → α} (hx : ∀ i, i < N → src[si + i]? = some (x i))
    (d0 : List α) (hroom : p + N < d0.length) :
    ∃ d', polyt N src (si : Int) d0 (p : Int) = .ok d' ∧ Wrote d0 d' p (N + 1) (fun k => (fromRoots x N).coeff (N - k)) := by
  have h := ((Wrote.zero d0 p (fun _ => (0 : α))).extend (by omega) (1 : α)).congr (w := fun k => (fromRoots x 0).coeff (0 - k)) (by
    intro k hk
    rw [if_pos (by omega), Nat.zero_sub, (fromRoots_top x 0).1])
  obtain ⟨d', e, w⟩ := polyOuter_eq hx d0 hroom N 0 _ (by omega) h
  refine ⟨d', ?_, w⟩
  unfold polyt
  have := store_nat (data := d0) (b := p) (k := 0) (1 : α) (by omega)
  simp only [Nat.cast_zero, Int.add_zero] at this
  rw [this]
  exact e

/-- `UnaryFunctor::broadcast` over rows. -/
theorem broadcast_rows {a out : Arr α} {o : Int} {n c w b L : Nat} {lead : List Int} {f : Int → Int → List α → Outcome (List α)} {v : Nat → Nat → α}
    (ha : HasShape a o (lead ++ [(c : Int)])) (hn : lead.prod = n) (hc : 0 < c)
    (hout : blockStep out 1 = .ok (w : Int)) (hL : out.data.length = L)
    (hf : ∀ i, i < n → ∀ dst : List α, dst.length = L →
      ∃ d, f ((c * i : Nat) : Int) ((w * i : Nat) : Int) dst = .ok d ∧ Wrote dst d (b + w * i) w (v i)) :
    ∃ d, broadcast 1 f a out = .ok d ∧ d.length = L ∧ ∀ i, i < n → ∀ j, j < w → d[b + w * i + j]? = some (v i j) := by
  have h1 := blockStep_eq ha
  simp only [List.length_singleton, List.prod_singleton] at h1
  obtain ⟨d, e, g1, g2, _⟩ := blocks_eq f (c : Int) (w : Int) b w L (fun i _ j => some (v i j)) n
    (fun i hi dst hd => by
      obtain ⟨d, e, w1, w2, w3⟩ := hf i hi dst hd
      refine ⟨d, ?_, by omega, w2, fun k hk => w3 k ?_⟩
      · rw [← e]; push_cast; rfl
      · by_contra hcon
        exact hk (k - (b + w * i)) (by omega) (by omega))
    (fun _ _ _ _ _ _ => rfl) 0 n (by omega) out.data hL
  refine ⟨d, ?_, g1, fun i hi j hj => g2 i (by omega) hi j hj⟩
  unfold broadcast
  rw [if_neg (by rw [ha.dim]; simp), h1, hout, ha.size]
  simp only [Outcome.bind_ok]
  rw [if_neg (by omega), List.prod_append, hn, List.prod_singleton, tdiv_blocks n c hc]
  exact e

theorem shape_last {a : Arr α} {o : Int} {lead : List Int} {c : Int} (ha : HasShape a o (lead ++ [c])) : shape a (-1) = .ok c := by
  have h := ha.shape (pre := lead) (d := c) (suf := []) rfl
  have hd := ha.dim
  rw [← h]
  unfold shape
  simp only []
  rw [if_pos (show (-1 : Int) < 0 by decide), if_neg (show ¬ (lead.length : Int) < 0 by omega), hd,
    show (((lead ++ [c]).length : Nat) : Int) + -1 = (lead.length : Int) by simp]

theorem subview_row {a : Arr α} {o n c i : Nat} {lead : List Int} (ha : HasShape a o (lead ++ [(c : Int)])) (hn : lead.prod = n)
    (hl : (a.data.length : Int) < 2 ^ 31) (hs : (lead ++ [(c : Int)]).prod + o ≤ a.data.length) (hi : i < n) :
    ∃ v, subview a 1 ((c * i : Nat) : Int) = .ok v ∧ v.data = a.data ∧ HasShape v ((o + c * i : Nat) : Int) ([] ++ [(c : Int)]) := by
  have h := ha.subview 1 (by omega) ((c * i : Nat) : Int)
  rw [List.prod_append, hn, List.prod_singleton] at hs
  have hci : c * i + c ≤ n * c := by
    calc c * i + c = c * (i + 1) := by ring
      _ ≤ c * n := Nat.mul_le_mul_left c hi
      _ = n * c := Nat.mul_comm c n
  have hs' : n * c + o ≤ a.data.length := by exact_mod_cast hs
  have hf : Fits [(c : Int)] := by simp only [Fits, List.prod_singleton, and_true]; omega
  have hm := view_make (a := a) (sh := [(c : Int)]) (off := ((c * i : Nat) : Int)) ha.offset (by omega) (by simp) hf hl (by simp)
    (by simp only [List.prod_singleton]; omega)
  refine ⟨⟨a.data, some (((o : Int) + ((c * i : Nat) : Int)) :: flat [(c : Int)])⟩, ?_, rfl, ?_⟩
  · rw [show ((1 : Nat) : Int) = 1 from rfl] at h
    rw [h]
    simp only [List.length_append, List.length_singleton, Nat.add_sub_cancel, List.drop_left']
    rw [hm]
  · refine .view _ _ ?_ hf (by simp)
    push_cast
    rfl

end Libube.Rows

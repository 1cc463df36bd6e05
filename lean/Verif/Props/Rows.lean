import Verif.Lemmas.Rows
import Mathlib.Tactic.Ring

/-! # Properties of poly and sum (C59, C66)

Arithmetic is that of a commutative ring. -/

namespace Libube.Rows

open View Transpose RowsSpec ViewSpec

/-! ## C59 -/

theorem cint_nat {n : Nat} (h : n < 2147483648) : cint (n : Int) = .ok (n : Int) := cint_ok (by omega)

theorem lt_max {n : Nat} (h : n < 2147483648) : (n : Int) < 2 ^ 31 := by omega

theorem newView_eq {sh : List Int} {junk : List α} (hn : sh ≠ []) (hpos : ∀ d ∈ sh, 0 < d) (hl : (junk.length : Int) = sh.prod)
    (hb : sh.prod < 2 ^ 31) : newView sh junk = .ok ⟨junk, some (0 :: flat sh)⟩ ∧ Fits sh ∧
      ∀ d : List α, d.length = junk.length → NewArray ⟨d, some (0 :: flat sh)⟩ sh d := by
  have hf := fits_of_pos hpos hb
  have hp := View.prod_pos hpos
  have key : ∀ d : List α, d.length = junk.length → View.view ⟨d, none⟩ sh 0 = .ok ⟨d, some (0 :: flat sh)⟩ := fun d hd =>
    view_make (a := ⟨d, none⟩) (sh := sh) (off := 0) (b := 0) rfl (by omega) hn hf
      (by show (d.length : Int) < _; omega) (by omega) (by show _ ≤ (d.length : Int); omega)
  exact ⟨key junk rfl, hf, fun d hd => ⟨key d hd, by omega⟩⟩

open Polynomial in
/-- C59: each row of the result holds the coefficients, highest power first, of the product of
    `X - r` for the roots `r` in that row.
    Missing for the full claim: `cdouble` (`poly_cdouble_undefined`) and no roots
    (`poly_empty_undefined`). -/
theorem poly_coefficients_partial [CommRing α] (k : Kind) (hk : k = .float ∨ k = .double ∨ k = .cfloat) (a : Arr α)
    (o n c : Nat) (lead : List Int) (ha : Shaped a o (lead ++ [(c : Int)])) (hlead : ∀ d ∈ lead, 0 < d) (hn : lead.prod = n)
    (hc : 0 < c) (junk : List α) (hj : junk.length = n * (c + 1)) (hb : n * (c + 1) < 2147483648)
    (x : Nat → Nat → α) (hx : ∀ i, i < n → ∀ t, t < c → a.data[o + c * i + t]? = some (x i t)) :
    ∃ out d, poly k junk a = .ok out ∧ NewArray out (lead ++ [((c + 1 : Nat) : Int)]) d ∧
      ∀ i, i < n → ∀ j, j ≤ c → d[(c + 1) * i + j]? = some ((∏ t ∈ Finset.range c, (X - C (x i t))).coeff (c - j)) := by
  obtain ⟨hs, hp, hl⟩ := ha.shape
  have hprod : (lead ++ [((c + 1 : Nat) : Int)]).prod = ((n * (c + 1) : Nat) : Int) := by
    rw [List.prod_append, hn, List.prod_singleton]; push_cast; ring
  have hpos : ∀ d ∈ lead ++ [((c + 1 : Nat) : Int)], 0 < d := by
    intro d hd
    rw [List.mem_append, List.mem_singleton] at hd
    rcases hd with h | rfl
    · exact hlead d h
    · omega
  obtain ⟨e1, hf, hnew⟩ := newView_eq (junk := junk) (by simp) hpos (by rw [hprod, hj]) (by rw [hprod]; exact lt_max (by omega))
  have hn0 : 0 < n := by have := View.prod_pos hlead; omega
  have hcc : c + 1 ≤ n * (c + 1) := Nat.le_mul_of_pos_left _ hn0
  have so : HasShape (⟨junk, some (0 :: flat (lead ++ [((c + 1 : Nat) : Int)]))⟩ : Arr α) ((0 : Nat) : Int) (lead ++ [((c + 1 : Nat) : Int)]) :=
    .view _ _ rfl hf (by simp)
  have hbs : blockStep (⟨junk, some (0 :: flat (lead ++ [((c + 1 : Nat) : Int)]))⟩ : Arr α) 1 = .ok ((c + 1 : Nat) : Int) := by
    have := blockStep_eq so
    simpa using this
  obtain ⟨d, e2, hd, g⟩ := broadcast_rows (b := 0) (v := fun i j => (fromRoots (x i) c).coeff (c - j))
    (f := polyVector k a ⟨junk, some (0 :: flat (lead ++ [((c + 1 : Nat) : Int)]))⟩) hs hn hc hbs hj (by
      intro i hi dst hdst
      obtain ⟨iv, s1, s2, s3⟩ := subview_row hs hn hl hp hi
      have so' : HasShape (⟨dst, some (0 :: flat (lead ++ [((c + 1 : Nat) : Int)]))⟩ : Arr α) ((0 : Nat) : Int) (lead ++ [((c + 1 : Nat) : Int)]) :=
        .view _ _ rfl hf (by simp)
      obtain ⟨ov, t1, t2, t3⟩ := subview_row (i := i) so' hn (lt_max (show dst.length < _ by omega))
        (by rw [hprod]; show _ ≤ (dst.length : Int); omega) hi
      have hroom : 0 + (c + 1) * i + c < dst.length := by
        rw [hdst]
        calc 0 + (c + 1) * i + c < (c + 1) * (i + 1) := by rw [Nat.mul_add]; omega
          _ ≤ (c + 1) * n := Nat.mul_le_mul_left _ hi
          _ = n * (c + 1) := Nat.mul_comm _ _
      obtain ⟨d', e', w'⟩ := polyt_eq (src := a.data) (si := o + c * i) (p := 0 + (c + 1) * i) (N := c) (x := x i)
        (fun t ht => hx i hi t ht) dst hroom
      refine ⟨d', ?_, w'⟩
      unfold polyVector viewsOf
      simp only []
      rw [hs.dim, so'.dim]
      simp only [List.length_append, List.length_singleton]
      rw [show ((lead.length + 1 : Nat) : Int) - (((lead.length + 1 : Nat) : Int) - 1) = 1 by omega, s1]
      simp only [Outcome.bind_ok]
      rw [t1]
      simp only [Outcome.bind_ok]
      rw [shape_last s3, s3.offset, t3.offset, s2]
      simp only [Outcome.bind_ok, Int.toNat_natCast]
      rcases hk with rfl | rfl | rfl <;> exact e')
  refine ⟨⟨d, some (0 :: flat (lead ++ [((c + 1 : Nat) : Int)]))⟩, d, ?_, hnew d (by rw [hd, hj]), fun i hi j hj => ?_⟩
  · unfold poly
    have h1 : shapeLoop a 0 (lead ++ [(c : Int)]).length = .ok (lead ++ [(c : Int)]) := hs.shapeLoop [] _ rfl
    rw [hs.dim, h1]
    simp only [Outcome.bind_ok]
    rw [show (lead ++ [(c : Int)]).length - 1 = lead.length by simp,
      show ipGet (lead ++ [(c : Int)]) lead.length = .ok (c : Int) by unfold ipGet; rw [getElem?_length_append]]
    rw [Outcome.bind_ok]
    rw [show (c : Int) + 1 = ((c + 1 : Nat) : Int) by push_cast; rfl, cint_nat (by omega)]
    simp only [Outcome.bind_ok]
    rw [show ipSet (lead ++ [(c : Int)]) lead.length ((c + 1 : Nat) : Int) = .ok (lead ++ [((c + 1 : Nat) : Int)]) by
      unfold ipSet; rw [if_pos (by simp), set_length_append]]
    simp only [Outcome.bind_ok]
    rcases hk with rfl | rfl | rfl <;> simp only [] <;> rw [e1] <;> simp only [Outcome.bind_ok] <;> rw [e2] <;> rfl
  · have := g i hi j (by omega)
    rw [Nat.zero_add] at this
    exact this

/-- C59 in terms of values: the coefficients returned evaluate to the product of the differences from
    the roots, at every point.  Missing: as for `poly_coefficients_partial`. -/
theorem poly_values_partial [CommRing α] (k : Kind) (hk : k = .float ∨ k = .double ∨ k = .cfloat) (a : Arr α)
    (o n c : Nat) (lead : List Int) (ha : Shaped a o (lead ++ [(c : Int)])) (hlead : ∀ d ∈ lead, 0 < d) (hn : lead.prod = n)
    (hc : 0 < c) (junk : List α) (hj : junk.length = n * (c + 1)) (hb : n * (c + 1) < 2147483648)
    (x : Nat → Nat → α) (hx : ∀ i, i < n → ∀ t, t < c → a.data[o + c * i + t]? = some (x i t)) :
    ∃ out d, ∃ q : Nat → Nat → α, poly k junk a = .ok out ∧ NewArray out (lead ++ [((c + 1 : Nat) : Int)]) d ∧
      (∀ i, i < n → ∀ j, j ≤ c → d[(c + 1) * i + j]? = some (q i j)) ∧
      ∀ i, i < n → ∀ z : α, ∑ j ∈ Finset.range (c + 1), q i j * z ^ (c - j) = ∏ t ∈ Finset.range c, (z - x i t) := by
  obtain ⟨out, d, e, hnew, g⟩ := poly_coefficients_partial k hk a o n c lead ha hlead hn hc junk hj hb x hx
  refine ⟨out, d, _, e, hnew, g, fun i hi z => ?_⟩
  have hdeg : (fromRoots (x i) c).natDegree < c + 1 := by
    have : (fromRoots (x i) c).natDegree ≤ c := by
      rw [Polynomial.natDegree_le_iff_coeff_eq_zero]
      intro m hm
      exact (fromRoots_top (x i) c).2 m (by exact_mod_cast hm)
    omega
  have h1 := Polynomial.eval_eq_sum_range' hdeg z
  have h2 : (fromRoots (x i) c).eval z = ∏ t ∈ Finset.range c, (z - x i t) := by
    unfold fromRoots
    rw [Polynomial.eval_prod]
    simp
  rw [← h2, h1, ← Finset.sum_range_reflect]
  refine Finset.sum_congr rfl fun j hj => ?_
  rw [show c + 1 - 1 - j = c - j by omega]
  have : c - (c - j) = j := by have := Finset.mem_range.mp hj; omega
  rw [this]
  rfl

/-- Roots 1, 2 and 3, 4 in two rows. -/
def roots22 : Arr Int := ⟨[1, 2, 3, 4], some [0, 2, 2, 2, 1]⟩
example : Shaped roots22 0 ([2] ++ [((2 : Nat) : Int)]) ∧
    poly .float [0, 0, 0, 0, 0, 0] roots22 = .ok ⟨[1, -3, 2, 1, -7, 12], some [0, 2, 3, 3, 1]⟩ :=
  ⟨.view 0 [2, 2] (by decide) (by decide), by decide⟩

/-- C59 fails for `cdouble`: the result is allocated as `cfloat` and then accessed as `cdouble`. -/
theorem poly_cdouble_undefined [CommRing α] (a : Arr α)
    (o n c : Nat) (lead : List Int) (ha : Shaped a o (lead ++ [(c : Int)])) (hlead : ∀ d ∈ lead, 0 < d) (hn : lead.prod = n)
    (hc : 0 < c) (junk : List α) (hj : junk.length = n * (c + 1)) (hb : n * (c + 1) < 2147483648) :
    poly .cdouble junk a = .ub .typePun := by
  obtain ⟨hs, hp, hl⟩ := ha.shape
  have hprod : (lead ++ [((c + 1 : Nat) : Int)]).prod = ((n * (c + 1) : Nat) : Int) := by
    rw [List.prod_append, hn, List.prod_singleton]; push_cast; ring
  have hpos : ∀ d ∈ lead ++ [((c + 1 : Nat) : Int)], 0 < d := by
    intro d hd
    rw [List.mem_append, List.mem_singleton] at hd
    rcases hd with h | rfl
    · exact hlead d h
    · omega
  obtain ⟨e1, hf, hnew⟩ := newView_eq (junk := junk) (by simp) hpos (by rw [hprod, hj]) (by rw [hprod]; exact lt_max (by omega))
  have hn0 : 0 < n := by have := View.prod_pos hlead; omega
  have hcc : c + 1 ≤ n * (c + 1) := Nat.le_mul_of_pos_left _ hn0
  have so : HasShape (⟨junk, some (0 :: flat (lead ++ [((c + 1 : Nat) : Int)]))⟩ : Arr α) ((0 : Nat) : Int) (lead ++ [((c + 1 : Nat) : Int)]) :=
    .view _ _ rfl hf (by simp)
  have hbs : blockStep (⟨junk, some (0 :: flat (lead ++ [((c + 1 : Nat) : Int)]))⟩ : Arr α) 1 = .ok ((c + 1 : Nat) : Int) := by
    have := blockStep_eq so
    simpa using this
  have hbi : blockStep a 1 = .ok (c : Int) := by
    have := blockStep_eq hs
    simpa using this
  unfold poly
  have h1 : shapeLoop a 0 (lead ++ [(c : Int)]).length = .ok (lead ++ [(c : Int)]) := hs.shapeLoop [] _ rfl
  rw [hs.dim, h1]
  simp only [Outcome.bind_ok]
  rw [show (lead ++ [(c : Int)]).length - 1 = lead.length by simp,
    show ipGet (lead ++ [(c : Int)]) lead.length = .ok (c : Int) by unfold ipGet; rw [getElem?_length_append]]
  rw [Outcome.bind_ok]
  rw [show (c : Int) + 1 = ((c + 1 : Nat) : Int) by push_cast; rfl, cint_nat (by omega)]
  simp only [Outcome.bind_ok]
  rw [show ipSet (lead ++ [(c : Int)]) lead.length ((c + 1 : Nat) : Int) = .ok (lead ++ [((c + 1 : Nat) : Int)]) by
    unfold ipSet; rw [if_pos (by simp), set_length_append]]
  simp only [Outcome.bind_ok]
  rw [e1]
  simp only [Outcome.bind_ok]
  unfold broadcast
  rw [if_neg (by rw [hs.dim]; simp), hbi, hbs, hs.size]
  simp only [Outcome.bind_ok]
  rw [if_neg (by omega), List.prod_append, hn, List.prod_singleton, tdiv_blocks n c hc]
  obtain ⟨m, rfl⟩ : ∃ m, n = m + 1 := ⟨n - 1, by omega⟩
  obtain ⟨iv, s1, s2, s3⟩ := subview_row hs hn hl hp (i := 0) (by omega)
  obtain ⟨ov, t1, t2, t3⟩ := subview_row (i := 0) so hn (lt_max (show junk.length < _ by omega))
    (by rw [hprod]; show _ ≤ (junk.length : Int); omega) (by omega)
  unfold blocks polyVector viewsOf
  simp only []
  rw [hs.dim, so.dim]
  simp only [List.length_append, List.length_singleton]
  simp only [Nat.mul_zero] at s1 t1
  rw [show ((lead.length + 1 : Nat) : Int) - (((lead.length + 1 : Nat) : Int) - 1) = 1 by omega,
    show (c : Int) * ((0 : Nat) : Int) = ((0 : Nat) : Int) by simp, show ((c + 1 : Nat) : Int) * ((0 : Nat) : Int) = ((0 : Nat) : Int) by simp, s1]
  simp only [Outcome.bind_ok]
  rw [t1]
  simp only [Outcome.bind_ok]
  rw [shape_last s3, s3.offset, t3.offset]
  rfl

example : poly .cdouble [0, 0, 0, 0, 0, 0] roots22 = .ub .typePun := by decide

/-- C59 fails for no roots: an integer is divided by zero. -/
theorem poly_empty_undefined [CommRing α] (k : Kind) (x : α) : poly k [x] ⟨[], none⟩ = .ub .divZero := by
  have h1 : shapeLoop (⟨[], none⟩ : Arr α) 0 (dim (⟨[], none⟩ : Arr α)) = .ok [0] := rfl
  have h2 : ipGet [0] 0 = .ok 0 := rfl
  have h3 : cint (0 + 1) = .ok 1 := by decide
  have h4 : ipSet [0] 0 1 = .ok [1] := rfl
  have h5 : newView [1] [x] = .ok ⟨[x], some [0, 1, 1]⟩ := by
    exact view_make (a := ⟨[x], none⟩) (sh := [1]) (off := 0) (b := 0) rfl (by decide) (by simp) (by decide) (by simp) (by decide) (by simp)
  unfold poly
  rw [h1]
  simp only [Outcome.bind_ok, List.length_singleton, Nat.sub_self]
  rw [h2]
  simp only [Outcome.bind_ok]
  rw [h3]
  simp only [Outcome.bind_ok]
  rw [h4]
  simp only [Outcome.bind_ok]
  rw [h5]
  cases k <;> rfl

/-! ## C66 -/

theorem sumLoop_eq [Ring α] {src : List α} {p : Nat} {x : Nat → α} {N : Nat} (hx : ∀ i, i < N → src[p + i]? = some (x i)) :
    ∀ (n i : Nat) (acc : α), i + n = N → acc = ∑ t ∈ Finset.range i, x t →
      sumLoop src (p : Int) i n acc = .ok (∑ t ∈ Finset.range N, x t)
  | 0, i, acc, hN, h => by rw [sumLoop, h, ← hN]; simp
  | n + 1, i, acc, hN, h => by
    rw [sumLoop, load_nat (hx i (by omega))]
    simp only [Outcome.bind_ok]
    exact sumLoop_eq hx n (i + 1) _ (by omega) (by rw [h, Finset.sum_range_succ])

theorem sumScalar_eq [Zero α] [Add α] {k : Kind} (hk : k ≠ .cdouble) (a out : Arr α) :
    sumScalar k a out = broadcast 1 (sumVector k a out) a out := if_neg hk

/-- C66 for one dimension: a number, the sum of all elements.
    Missing for the full claim: integers (`sum_int_throws`), `cdouble` (`sum_cdouble_first`, `sum_cdouble_rows`), the empty array
    (`sum_empty_undefined`). -/
theorem sum_vector_partial [Ring α] (k : Kind) (hk : k = .float ∨ k = .double ∨ k = .cfloat) (a : Arr α)
    (o c : Nat) (ha : Shaped a o [(c : Int)]) (hc : 0 < c) (junk : List α)
    (x : Nat → α) (hx : ∀ t, t < c → a.data[o + t]? = some (x t)) :
    sum k junk a = .ok ⟨[∑ t ∈ Finset.range c, x t], none⟩ := by
  obtain ⟨hs, hp, hl⟩ := ha.shape
  have hs' : HasShape a (o : Int) ([] ++ [(c : Int)]) := hs
  have h0 := hx 0 hc
  obtain ⟨d, e, hd, g⟩ := broadcast_rows (n := 1) (w := 1) (b := 0) (L := 1) (v := fun _ _ => ∑ t ∈ Finset.range c, x t)
    (f := sumVector k a ⟨[x 0], none⟩) hs' rfl hc (out := ⟨[x 0], none⟩) rfl rfl (by
      intro i hi dst hdst
      obtain rfl : i = 0 := by omega
      have e : sumLoop a.data ((o : Int) + ((c * 0 : Nat) : Int)) 0 c 0 = .ok (∑ t ∈ Finset.range c, x t) := by
        have := sumLoop_eq (p := o) hx c 0 0 (by omega) (by simp)
        simpa using this
      match dst, hdst with
      | [y], _ =>
        refine ⟨[∑ t ∈ Finset.range c, x t], ?_, rfl, fun j hj => ?_, fun q hq => ?_⟩
        · unfold sumVector
          rw [shape_last hs', hs.offset]
          simp only [Outcome.bind_ok, Int.toNat_natCast]
          rcases hk with rfl | rfl | rfl <;> simp only [] <;> rw [e] <;> rfl
        · obtain rfl : j = 0 := by omega
          rfl
        · have : 1 ≤ q := by omega
          rw [List.getElem?_eq_none (by simpa using this), List.getElem?_eq_none (by simpa using this)])
  have hd' : d = [∑ t ∈ Finset.range c, x t] := by
    have := g 0 (by omega) 0 (by omega)
    match d, hd with
    | [z], _ => simpa using this
  unfold sum scalarAlloc
  rw [hs.offset]
  simp only [Outcome.bind_ok]
  have hl0 : load a.data (o : Int) = .ok (x 0) := by
    have := load_nat (b := o) (k := 0) h0
    simpa using this
  rw [hl0]
  simp only [Outcome.bind_ok]
  rw [if_neg (by rw [hs.dim]; simp)]
  simp only [Outcome.bind_ok]
  rw [sumScalar_eq (by rcases hk with rfl | rfl | rfl <;> decide), e, hd']
  rfl

example : Shaped (⟨[1, 2, 3, 4], some [1, 3, 1]⟩ : Arr Int) 1 [((3 : Nat) : Int)] ∧
    sum .float [] (⟨[1, 2, 3, 4], some [1, 3, 1]⟩ : Arr Int) = .ok ⟨[9], none⟩ :=
  ⟨.view 1 [3] (by decide) (by decide), by decide⟩

/-- C66 for several dimensions: an array with last dimension 1 of the sums of the rows.  Missing: as
    for `sum_vector_partial`. -/
theorem sum_rows_partial [Ring α] (k : Kind) (hk : k = .float ∨ k = .double ∨ k = .cfloat) (a : Arr α)
    (o n c : Nat) (lead : List Int) (ha : Shaped a o (lead ++ [(c : Int)])) (hlead : ∀ d ∈ lead, 0 < d) (hne : lead ≠ [])
    (hn : lead.prod = n) (hc : 0 < c) (junk : List α) (hj : junk.length = n)
    (x : Nat → Nat → α) (hx : ∀ i, i < n → ∀ t, t < c → a.data[o + c * i + t]? = some (x i t)) :
    ∃ out d, sum k junk a = .ok out ∧ NewArray out (lead ++ [1]) d ∧
      ∀ i, i < n → d[i]? = some (∑ t ∈ Finset.range c, x i t) := by
  obtain ⟨hs, hp, hl⟩ := ha.shape
  have hprod : (lead ++ [(1 : Int)]).prod = (n : Int) := by
    rw [List.prod_append, hn, List.prod_singleton]; simp
  have hpos : ∀ d ∈ lead ++ [(1 : Int)], 0 < d := by
    intro d hd
    rw [List.mem_append, List.mem_singleton] at hd
    rcases hd with h | rfl
    · exact hlead d h
    · omega
  have hn0 : 0 < n := by have := View.prod_pos hlead; omega
  have hnc : n ≤ n * c := Nat.le_mul_of_pos_right _ hc
  have hp' : n * c + o ≤ a.data.length := by
    rw [List.prod_append, hn, List.prod_singleton] at hp
    exact_mod_cast hp
  obtain ⟨e1, hf, hnew⟩ := newView_eq (junk := junk) (by simp) hpos (by rw [hprod, hj]) (by rw [hprod]; exact lt_max (by omega))
  have so : HasShape (⟨junk, some (0 :: flat (lead ++ [(1 : Int)]))⟩ : Arr α) ((0 : Nat) : Int) (lead ++ [(1 : Int)]) :=
    .view _ _ rfl hf (by simp)
  have hbs : blockStep (⟨junk, some (0 :: flat (lead ++ [(1 : Int)]))⟩ : Arr α) 1 = .ok ((1 : Nat) : Int) := by
    have := blockStep_eq so
    simpa using this
  obtain ⟨d, e2, hd, g⟩ := broadcast_rows (b := 0) (v := fun i _ => ∑ t ∈ Finset.range c, x i t)
    (f := sumVector k a ⟨junk, some (0 :: flat (lead ++ [(1 : Int)]))⟩) hs hn hc hbs hj (by
      intro i hi dst hdst
      have e : sumLoop a.data (((o + c * i : Nat)) : Int) 0 c 0 = .ok (∑ t ∈ Finset.range c, x i t) :=
        sumLoop_eq (p := o + c * i) (fun t ht => hx i hi t ht) c 0 0 (by omega) (by simp)
      have w := ((Wrote.zero dst i (fun _ => (0 : α))).extend (by omega) (∑ t ∈ Finset.range c, x i t)).congr
        (w := fun _ => ∑ t ∈ Finset.range c, x i t) (by intro j hj; rw [if_pos (by omega)])
      refine ⟨dst.set i (∑ t ∈ Finset.range c, x i t), ?_, by simpa using w⟩
      unfold sumVector
      rw [shape_last hs, hs.offset, so.offset]
      simp only [Outcome.bind_ok, Int.toNat_natCast]
      have hst := store_nat (data := dst) (b := 0) (k := i) (∑ t ∈ Finset.range c, x i t) (by omega)
      rw [Nat.zero_add] at hst
      rw [show (o : Int) + ((c * i : Nat) : Int) = ((o + c * i : Nat) : Int) by push_cast; rfl, Nat.one_mul]
      rcases hk with rfl | rfl | rfl <;> simp only [] <;> rw [e] <;> exact hst)
  refine ⟨⟨d, some (0 :: flat (lead ++ [(1 : Int)]))⟩, d, ?_, hnew d (by rw [hd, hj]), fun i hi => ?_⟩
  · unfold sum scalarAlloc
    rw [hs.offset]
    simp only [Outcome.bind_ok]
    obtain ⟨x0, _, hl0⟩ := load_inside (data := a.data) (i := (o : Int)) (by omega) (by omega)
    rw [hl0]
    simp only [Outcome.bind_ok]
    have hl1 := List.length_pos_iff.mpr hne
    rw [if_pos (by rw [hs.dim]; simp; exact hl1)]
    have h1 : shapeLoop a 0 (lead ++ [(c : Int)]).length = .ok (lead ++ [(c : Int)]) := hs.shapeLoop [] _ rfl
    rw [hs.dim, h1]
    simp only [Outcome.bind_ok]
    rw [show (lead ++ [(c : Int)]).length - 1 = lead.length by simp,
      show ipSet (lead ++ [(c : Int)]) lead.length 1 = .ok (lead ++ [(1 : Int)]) by
        unfold ipSet; rw [if_pos (by simp), set_length_append]]
    simp only [Outcome.bind_ok]
    rw [e1]
    simp only [Outcome.bind_ok]
    rw [sumScalar_eq (by rcases hk with rfl | rfl | rfl <;> decide), e2]
    rfl
  · have := g i hi 0 (by omega)
    simpa using this

example : sum .double [0, 0] roots22 = .ok ⟨[3, 7], some [0, 2, 1, 1, 1]⟩ := by decide

/-- C66 fails for integers and characters: the sum of a vector of them throws. -/
theorem sum_int_throws [Ring α] (k : Kind) (hk : k = .char ∨ k = .int ∨ k = .long) (a : Arr α)
    (o c : Nat) (ha : Shaped a o [(c : Int)]) (hc : 0 < c) (junk : List α) :
    sum k junk a = .thrown (.error "Sum::vector: Unknown type") := by
  obtain ⟨hs, hp, hl⟩ := ha.shape
  have hs' : HasShape a (o : Int) ([] ++ [(c : Int)]) := hs
  have hbi : blockStep a 1 = .ok (c : Int) := by
    have := blockStep_eq hs'
    simpa using this
  rw [List.prod_singleton] at hp
  unfold sum scalarAlloc
  rw [hs.offset]
  simp only [Outcome.bind_ok]
  obtain ⟨x0, _, hl0⟩ := load_inside (data := a.data) (i := (o : Int)) (by omega) (by omega)
  rw [hl0]
  simp only [Outcome.bind_ok]
  rw [if_neg (by rw [hs.dim]; simp)]
  simp only [Outcome.bind_ok]
  rw [sumScalar_eq (by rcases hk with rfl | rfl | rfl <;> decide)]
  unfold broadcast
  rw [if_neg (by rw [hs.dim]; simp), hbi, hs.size]
  have hbo : blockStep (⟨[x0], none⟩ : Arr α) 1 = .ok 1 := rfl
  rw [hbo]
  simp only [Outcome.bind_ok]
  rw [if_neg (by omega)]
  have ht := tdiv_blocks 1 c hc
  rw [show ((1 : Nat) : Int) * (c : Int) = c by simp] at ht
  rw [List.prod_singleton, ht]
  unfold blocks sumVector
  rw [shape_last hs', hs.offset]
  rcases hk with rfl | rfl | rfl <;> rfl

example : sum .int [] (⟨[1, 2, 3], none⟩ : Arr Int) = .thrown (.error "Sum::vector: Unknown type") := by decide

/-- C66 fails for `cdouble`: the "sum" of a vector is its first element. -/
theorem sum_cdouble_first [Ring α] (a : Arr α) (o c : Nat) (ha : Shaped a o [(c : Int)]) (x : α) (hx : a.data[o]? = some x) (junk : List α) :
    sum .cdouble junk a = .ok ⟨[x], none⟩ := by
  obtain ⟨hs, hp, hl⟩ := ha.shape
  have hl0 : load a.data (o : Int) = .ok x := by
    have := load_nat (b := o) (k := 0) hx
    simpa using this
  unfold sum scalarAlloc
  rw [hs.offset]
  simp only [Outcome.bind_ok]
  rw [hl0]
  simp only [Outcome.bind_ok]
  rw [if_neg (by rw [hs.dim]; simp)]
  simp only [Outcome.bind_ok]
  unfold sumScalar sumFirst
  rw [if_pos rfl, hs.offset]
  simp only [Outcome.bind_ok]
  rw [hl0]
  rfl

example : Shaped (⟨[1, 2, 3, 4], some [1, 3, 1]⟩ : Arr Int) 1 [((3 : Nat) : Int)] ∧
    sum .cdouble [] (⟨[1, 2, 3, 4], some [1, 3, 1]⟩ : Arr Int) = .ok ⟨[2], none⟩ :=
  ⟨.view 1 [3] (by decide) (by decide), by decide⟩

/-- C66 fails for `cdouble` in several dimensions: the first of the results is the first element, and the others are whatever the new storage
    held. -/
theorem sum_cdouble_rows [Ring α] (a : Arr α) (o n c : Nat) (lead : List Int) (ha : Shaped a o (lead ++ [(c : Int)])) (hlead : ∀ d ∈ lead, 0 < d)
    (hne : lead ≠ []) (hn : lead.prod = n) (hc : 0 < c) (x : α) (hx : a.data[o]? = some x) (junk : List α) (hj : junk.length = n) :
    ∃ out d, sum .cdouble junk a = .ok out ∧ NewArray out (lead ++ [1]) d ∧ d[0]? = some x ∧ ∀ i, 0 < i → d[i]? = junk[i]? := by
  obtain ⟨hs, hp, hl⟩ := ha.shape
  have hprod : (lead ++ [(1 : Int)]).prod = (n : Int) := by
    rw [List.prod_append, hn, List.prod_singleton]; simp
  have hpos : ∀ d ∈ lead ++ [(1 : Int)], 0 < d := by
    intro d hd
    rw [List.mem_append, List.mem_singleton] at hd
    rcases hd with h | rfl
    · exact hlead d h
    · omega
  have hn0 : 0 < n := by have := View.prod_pos hlead; omega
  have hnc : n ≤ n * c := Nat.le_mul_of_pos_right _ hc
  have hp' : n * c + o ≤ a.data.length := by
    rw [List.prod_append, hn, List.prod_singleton] at hp
    exact_mod_cast hp
  obtain ⟨e1, hf, hnew⟩ := newView_eq (junk := junk) (by simp) hpos (by rw [hprod, hj]) (by rw [hprod]; exact lt_max (by omega))
  have hl0 : load a.data (o : Int) = .ok x := by
    have := load_nat (b := o) (k := 0) hx
    simpa using this
  have so : HasShape (⟨junk, some (0 :: flat (lead ++ [(1 : Int)]))⟩ : Arr α) ((0 : Nat) : Int) (lead ++ [(1 : Int)]) :=
    .view _ _ rfl hf (by simp)
  refine ⟨⟨junk.set 0 x, some (0 :: flat (lead ++ [(1 : Int)]))⟩, junk.set 0 x, ?_, hnew _ (by simp), ?_, fun i hi => ?_⟩
  · unfold sum scalarAlloc
    rw [hs.offset]
    simp only [Outcome.bind_ok]
    rw [hl0]
    simp only [Outcome.bind_ok]
    have hl1 := List.length_pos_iff.mpr hne
    rw [if_pos (by rw [hs.dim]; simp; exact hl1)]
    have h1 : shapeLoop a 0 (lead ++ [(c : Int)]).length = .ok (lead ++ [(c : Int)]) := hs.shapeLoop [] _ rfl
    rw [hs.dim, h1]
    simp only [Outcome.bind_ok]
    rw [show (lead ++ [(c : Int)]).length - 1 = lead.length by simp,
      show ipSet (lead ++ [(c : Int)]) lead.length 1 = .ok (lead ++ [(1 : Int)]) by unfold ipSet; rw [if_pos (by simp), set_length_append]]
    simp only [Outcome.bind_ok]
    rw [e1]
    simp only [Outcome.bind_ok]
    unfold sumScalar sumFirst
    rw [if_pos rfl, hs.offset]
    simp only [Outcome.bind_ok]
    rw [hl0, so.offset]
    simp only [Outcome.bind_ok]
    have hst := store_nat (data := junk) (b := 0) (k := 0) x (by omega)
    simp only [Nat.add_zero, Nat.cast_zero, Int.add_zero] at hst
    rw [show ((0 : Nat) : Int) = 0 from rfl, hst]
    rfl
  · rw [List.getElem?_set_self (by omega)]
  · rw [List.getElem?_set_ne (by omega)]

example : sum .cdouble [7, 8] roots22 = .ok ⟨[1, 8], some [0, 2, 1, 1, 1]⟩ := by decide

/-- C66 fails for the empty array: its element 0 is read. -/
theorem sum_empty_undefined [Ring α] (k : Kind) (junk : List α) : sum k junk (⟨[], none⟩ : Arr α) = .ub .outOfBounds := rfl

#print axioms sum_cdouble_first
#print axioms sum_cdouble_rows
#print axioms poly_coefficients_partial
#print axioms poly_values_partial
#print axioms poly_cdouble_undefined
#print axioms poly_empty_undefined
#print axioms sum_vector_partial
#print axioms sum_rows_partial
#print axioms sum_int_throws
#print axioms sum_empty_undefined

end Libube.Rows

import Verif.Model.Reduce
import Verif.Spec.Reduce
import Verif.Lemmas.Dot
import Verif.Props.Rows

/-! # Lemmas about asum, iamax, sort and concatenate -/

namespace Libube.Reduce

open View Transpose Rows RowsSpec ReduceSpec ViewSpec

theorem asumLoop_eq [Ring α] [LinearOrder α] {src : List α} {p : Nat} : ∀ (row : List α) (i : Nat) (acc : α),
    (∀ t, t < row.length → src[p + (i + t)]? = row[t]?) →
      asumLoop src (p : Int) i row.length acc = .ok (acc + (row.map fun x => |x|).sum)
  | [], i, acc, _ => by simp [asumLoop]
  | x :: row, i, acc, h => by
    have h0 := h 0 (by simp)
    rw [List.length_cons, asumLoop, load_nat (b := p) (k := i) (x := x) (by simpa using h0), Outcome.bind_ok,
      asumLoop_eq row (i + 1) _ (fun t ht => by
        have := h (t + 1) (by simpa using ht)
        rw [show i + 1 + t = i + (t + 1) by omega, this]; simp)]
    simp [add_assoc]

theorem asumRow_eq [Ring α] [LinearOrder α] {src : List α} {p : Nat} {row : List α} (h : RowAt src p row) {q : Int} (hq : q = p) {c : Nat} (hc : row.length = c) :
    asumLoop src q 0 c 0 = .ok (row.map fun x => |x|).sum := by
  subst hq hc
  rw [asumLoop_eq row 0 0 (fun t ht => by simpa using h t ht)]
  simp

theorem iamaxLoop_eq [LinearOrder β] {mag : α → β} {src : List α} {p : Nat} {row : List α} (h : RowAt src p row) :
    ∀ (n i : Nat) (pos : Nat) (x : α), i + n = row.length → pos < i → row[pos]? = some x →
      (∀ (j : Nat) y, j < i → row[j]? = some y → mag y ≤ mag x) → (∀ (j : Nat) y, j < pos → row[j]? = some y → mag y < mag x) →
      ∃ r, iamaxLoop mag src (p : Int) i n (mag x) pos = .ok r ∧ FirstLargest mag row r
  | 0, i, pos, x, hi, hp, hx, h1, h2 => ⟨pos, rfl, x, hx, fun y hy => by
      obtain ⟨j, hj, rfl⟩ := List.mem_iff_getElem.mp hy
      exact h1 j _ (by omega) (List.getElem?_eq_getElem hj), h2⟩
  | n + 1, i, pos, x, hi, hp, hx, h1, h2 => by
    have hl : i < row.length := by omega
    have hr : row[i]? = some row[i] := List.getElem?_eq_getElem hl
    rw [iamaxLoop, load_nat (b := p) (k := i) (x := row[i]) (by rw [h i hl, hr]), Outcome.bind_ok]
    by_cases hm : mag x < mag row[i]
    · rw [if_pos hm]
      have hlt : ∀ (j : Nat) y, j < i → row[j]? = some y → mag y < mag row[i] := fun j y hj hy => lt_of_le_of_lt (h1 j y hj hy) hm
      refine iamaxLoop_eq h n (i + 1) i row[i] (by omega) (by omega) hr (fun j y hj hy => ?_) hlt
      rcases Nat.lt_succ_iff_lt_or_eq.mp hj with hj | rfl
      · exact le_of_lt (hlt j y hj hy)
      · rw [hr] at hy
        cases hy
        exact le_refl _
    · rw [if_neg hm]
      refine iamaxLoop_eq h n (i + 1) pos x (by omega) (by omega) hx (fun j y hj hy => ?_) h2
      rcases Nat.lt_succ_iff_lt_or_eq.mp hj with hj | rfl
      · exact h1 j y hj hy
      · rw [hr] at hy
        cases hy
        exact le_of_not_gt hm

theorem iamaxRow_eq [LinearOrder β] {mag : α → β} {src : List α} {p : Nat} {row : List α} (h : RowAt src p row) {q : Int} (hq : q = p) {c : Nat}
    (hc : row.length = c) (hc0 : 0 < c) : ∃ r : Nat, iamaxRow mag c src q = .ok (r : Int) ∧ FirstLargest mag row r := by
  subst hq
  obtain ⟨m, rfl⟩ : ∃ m, c = m + 1 := ⟨c - 1, by omega⟩
  have hl : 0 < row.length := by omega
  have hr : row[0]? = some row[0] := List.getElem?_eq_getElem hl
  obtain ⟨r, e, g⟩ := iamaxLoop_eq (mag := mag) h m 1 0 row[0] (by omega) (by omega) hr
    (fun j y hj hy => by
      obtain rfl : j = 0 := by omega
      rw [hr] at hy
      cases hy
      exact le_refl _) (fun j y hj => by omega)
  refine ⟨r, ?_, g⟩
  have h0 := h 0 hl
  rw [hr] at h0
  rw [iamaxRow, Dot.load_at (n := p) rfl (by simpa using h0), Outcome.bind_ok, e]
  rfl

/-- A row as a list. -/
theorem rowAt_take {d : List α} {p c : Nat} (h : p + c ≤ d.length) : RowAt d p ((d.drop p).take c) ∧ ((d.drop p).take c).length = c := by
  have hl : ((d.drop p).take c).length = c := by simp; omega
  refine ⟨fun t ht => ?_, hl⟩
  rw [hl] at ht
  rw [List.getElem?_take_of_lt ht, List.getElem?_drop]

theorem rowAt_eq {d : List α} {p : Nat} {row : List α} (h : RowAt d p row) (hr : p + row.length ≤ d.length) : row = (d.drop p).take row.length := by
  have h' := rowAt_take hr
  apply List.ext_getElem?
  intro t
  by_cases ht : t < row.length
  · rw [← h t ht, ← h'.1 t (by rw [h'.2]; exact ht)]
  · rw [List.getElem?_eq_none (by omega), List.getElem?_eq_none (by rw [h'.2]; omega)]

theorem sortRange_eq [LinearOrder α] {d : List α} {p c : Nat} (h : p + c ≤ d.length) {q : Int} (hq : q = p) : ∃ d', sortRange d q c = .ok d' ∧ d'.length = d.length ∧
    RowAt d' p (((d.drop p).take c).insertionSort (· ≤ ·)) ∧ ∀ k, k < p ∨ p + c ≤ k → d'[k]? = d[k]? := by
  subst hq
  have hl : (((d.drop p).take c).insertionSort (· ≤ ·)).length = c := by rw [List.length_insertionSort]; simp; omega
  refine ⟨_, by rw [sortRange, if_neg (by omega)], ?_, ?_, ?_⟩
  · simp only [Int.toNat_natCast, List.length_append, hl, List.length_take, List.length_drop]; omega
  · intro t ht
    rw [Int.toNat_natCast, List.append_assoc, List.getElem?_append_right (by simp), List.getElem?_append_left (by simp at ht ⊢; omega)]
    congr 1
    simp; omega
  · intro k hk
    rw [Int.toNat_natCast, List.append_assoc]
    rcases hk with hk | hk
    · rw [List.getElem?_append_left (by simp; omega), List.getElem?_take_of_lt hk]
    · rw [List.getElem?_append_right (by simp; omega), List.getElem?_append_right (by rw [hl]; simp; omega), List.getElem?_drop, hl]
      congr 1
      simp; omega

theorem filterMap_row {d : List α} {p : Nat} : ∀ {c : Nat}, p + c ≤ d.length → (List.range c).filterMap (fun q => d[p + q]?) = (d.drop p).take c
  | 0, _ => by simp
  | c + 1, h => by
    have hlt : p + c < d.length := by omega
    rw [List.range_succ, List.filterMap_append, filterMap_row (c := c) (by omega), List.take_add_one, List.getElem?_drop,
      List.getElem?_eq_getElem hlt]
    simp [List.filterMap, List.getElem?_eq_getElem hlt]

theorem with_data {a : Arr α} {o : Int} {sh : List Int} (h : HasShape a o sh) {d : List α} (hd : d.length = a.data.length) :
    HasShape ({ a with data := d } : Arr α) o sh := by
  cases h with
  | view _ _ hi hf hn => exact .view _ _ hi hf hn
  | plain hi hl =>
    have := HasShape.plain (a := ({ a with data := d } : Arr α)) hi (by simpa [hd] using hl)
    simpa [hd] using this

/-- Allocating the output: the shape of `a` with another last dimension. -/
theorem newLast {a : Arr α} {o : Int} {n c w : Nat} {lead : List Int} (hs : HasShape a o (lead ++ [(c : Int)])) (hlead : ∀ d ∈ lead, 0 < d) (hn : lead.prod = n)
    (hw : 0 < w) (junk : List β) (hj : junk.length = n * w) (hb : n * w < 2147483648) :
    (shapeLoop a 0 (dim a) >>= fun s => ipSet s (s.length - 1) (w : Int) >>= fun s => newView s junk) = .ok ⟨junk, some (0 :: flat (lead ++ [(w : Int)]))⟩ ∧
      ∀ d : List β, d.length = n * w → HasShape (⟨d, some (0 :: flat (lead ++ [(w : Int)]))⟩ : Arr β) ((0 : Nat) : Int) (lead ++ [(w : Int)]) ∧
        blockStep (⟨d, some (0 :: flat (lead ++ [(w : Int)]))⟩ : Arr β) 1 = .ok (w : Int) ∧ NewArray ⟨d, some (0 :: flat (lead ++ [(w : Int)]))⟩ (lead ++ [(w : Int)]) d ∧
        (lead ++ [(w : Int)]).prod + ((0 : Nat) : Int) ≤ d.length ∧ (d.length : Int) < 2 ^ 31 := by
  have hprod : (lead ++ [(w : Int)]).prod = ((n * w : Nat) : Int) := by
    rw [List.prod_append, hn, List.prod_singleton]; push_cast; ring
  have hpos : ∀ d ∈ lead ++ [(w : Int)], 0 < d := by
    intro d hd
    rw [List.mem_append, List.mem_singleton] at hd
    rcases hd with h | rfl
    · exact hlead d h
    · omega
  obtain ⟨e1, hf, hnew⟩ := newView_eq (junk := junk) (by simp) hpos (by rw [hprod, hj]) (by rw [hprod]; exact lt_max (by omega))
  refine ⟨?_, fun d hd => ?_⟩
  · have h1 : shapeLoop a 0 (lead ++ [(c : Int)]).length = .ok (lead ++ [(c : Int)]) := hs.shapeLoop [] _ rfl
    rw [hs.dim, h1, Outcome.bind_ok, show (lead ++ [(c : Int)]).length - 1 = lead.length by simp,
      show ipSet (lead ++ [(c : Int)]) lead.length (w : Int) = .ok (lead ++ [(w : Int)]) by
        unfold ipSet; rw [if_pos (by simp), set_length_append], Outcome.bind_ok, e1]
  · have so : HasShape (⟨d, some (0 :: flat (lead ++ [(w : Int)]))⟩ : Arr β) ((0 : Nat) : Int) (lead ++ [(w : Int)]) := .view _ _ rfl hf (by simp)
    refine ⟨so, ?_, hnew d (by omega), ?_, ?_⟩
    · have := blockStep_eq so
      simpa using this
    · rw [hprod]; omega
    · rw [hd]; exact lt_max hb

theorem room {lead : List Int} {n c o : Nat} {d : List α} (hn : lead.prod = n) (hp : (lead ++ [(c : Int)]).prod + (o : Int) ≤ d.length) :
    o + n * c ≤ d.length ∧ ∀ i, i < n → o + c * i + c ≤ d.length := by
  rw [List.prod_append, hn, List.prod_singleton] at hp
  have h : n * c + o ≤ d.length := by exact_mod_cast hp
  refine ⟨by omega, fun i hi => ?_⟩
  have : c * i + c ≤ n * c := by
    calc c * i + c = c * (i + 1) := by ring
      _ ≤ c * n := Nat.mul_le_mul_left c hi
      _ = n * c := Nat.mul_comm c n
  omega

/-! ### Concatenation -/

theorem copyLoop_eq {src : List α} {p q : Nat} {row : List α} (h : RowAt src p row) : ∀ (n i : Nat) (dst : List α), i + n = row.length → q + row.length ≤ dst.length →
    ∃ d, copyLoop src (p : Int) (q : Int) i n dst = .ok d ∧ d.length = dst.length ∧
      (∀ t, i ≤ t → t < row.length → d[q + t]? = row[t]?) ∧ ∀ k, k < q + i ∨ q + row.length ≤ k → d[k]? = dst[k]?
  | 0, i, dst, hi, hq => ⟨dst, rfl, rfl, fun t h1 h2 => by omega, fun _ _ => rfl⟩
  | n + 1, i, dst, hi, hq => by
    have hl : i < row.length := by omega
    have hr : row[i]? = some row[i] := List.getElem?_eq_getElem hl
    obtain ⟨d, e, h1, h2, h3⟩ := copyLoop_eq h n (i + 1) (dst.set (q + i) row[i]) (by omega) (by simpa using hq)
    refine ⟨d, ?_, by simpa using h1, fun t ht ht' => ?_, fun k hk => ?_⟩
    · rw [copyLoop, load_nat (b := p) (k := i) (x := row[i]) (by rw [h i hl, hr]), Outcome.bind_ok, store_nat _ (by omega), Outcome.bind_ok, e]
    · by_cases e : t = i
      · subst e
        rw [h3 (q + t) (by omega), List.getElem?_set_self (by omega), hr]
      · exact h2 t (by omega) ht'
    · rw [h3 k (by omega), List.getElem?_set_ne (by omega)]

/-- The views `vs` show the rows `rs`. -/
def Views : List (Arr α) → List (List α) → Prop
  | [], [] => True
  | v :: vs, r :: rs => (∃ p : Nat, HasShape v (p : Int) ([] ++ [(r.length : Int)]) ∧ RowAt v.data p r) ∧ Views vs rs
  | _, _ => False

theorem copyAll_eq {q : Nat} : ∀ (vs : List (Arr α)) (rs : List (List α)) (sum : Nat) (dst : List α), Views vs rs → q + sum + rs.flatten.length ≤ dst.length →
    dst.length < 2147483648 → ∃ d, copyAll (q : Int) vs (sum : Int) dst = .ok d ∧ d.length = dst.length ∧ RowAt d (q + sum) rs.flatten ∧
      ∀ k, k < q + sum ∨ q + sum + rs.flatten.length ≤ k → d[k]? = dst[k]?
  | [], [], sum, dst, _, _, _ => ⟨dst, rfl, rfl, fun t ht => by simp at ht, fun _ _ => rfl⟩
  | v :: vs, r :: rs, sum, dst, h, hq, hb => by
    obtain ⟨⟨p, hs, hr⟩, hv⟩ := h
    simp only [List.flatten_cons, List.length_append] at hq
    obtain ⟨d1, e1, l1, f1, g1⟩ := copyLoop_eq (q := q + sum) hr r.length 0 dst (by omega) (by omega)
    obtain ⟨d, e, l, f, g⟩ := copyAll_eq (q := q) vs rs (sum + r.length) d1 hv (by omega) (by omega)
    refine ⟨d, ?_, by omega, fun t ht => ?_, fun k hk => ?_⟩
    · rw [copyAll, shape_last hs, Outcome.bind_ok, hs.offset, Outcome.bind_ok]
      simp only [Int.toNat_natCast]
      rw [show (q : Int) + (sum : Int) = ((q + sum : Nat) : Int) by push_cast; rfl, e1, Outcome.bind_ok,
        show (sum : Int) + (r.length : Int) = ((sum + r.length : Nat) : Int) by push_cast; rfl, cint_nat (by omega), Outcome.bind_ok, e]
    · simp only [List.flatten_cons, List.length_append] at ht ⊢
      by_cases htr : t < r.length
      · rw [List.getElem?_append_left htr, g _ (by omega)]
        exact f1 t (by omega) htr
      · rw [List.getElem?_append_right (by omega), ← f (t - r.length) (by omega)]
        congr 1
        omega
    · simp only [List.flatten_cons, List.length_append] at hk
      rw [g k (by omega), g1 k (by omega)]

theorem rowStep_eq {a : Arr α} {o : Int} {n c : Nat} {lead : List Int} (hs : HasShape a o (lead ++ [(c : Int)])) (hn : lead.prod = n) :
    ∃ s, rowStep lead.length a = .ok s ∧ ∀ i, i < n → s * (i : Int) = ((c * i : Nat) : Int) := by
  unfold rowStep
  cases hl : lead using List.reverseRecOn with
  | nil =>
    subst hl
    refine ⟨0, rfl, fun i hi => ?_⟩
    have : n = 1 := by simpa using hn.symm
    obtain rfl : i = 0 := by omega
    simp
  | append_singleton pre x _ =>
    subst hl
    have := hs.stride (pre := pre) (d := x) (suf := [(c : Int)]) (by simp)
    refine ⟨c, ?_, fun i _ => by push_cast; rfl⟩
    rw [if_pos (by simp), show (((pre ++ [x]).length : Nat) : Int) - 1 = (pre.length : Int) by simp, this]
    simp

theorem rowView_eq {a : Arr α} {o n c i : Nat} {lead : List Int} (ha : Shaped a o (lead ++ [(c : Int)])) (hn : lead.prod = n) (hi : i < n) :
    ∃ v, rowView lead.length i a = .ok v ∧ v.data = a.data ∧ HasShape v ((o + c * i : Nat) : Int) ([] ++ [(c : Int)]) := by
  obtain ⟨hs, hp, hl⟩ := ha.shape
  obtain ⟨hr, hri⟩ := room hn hp
  obtain ⟨s, e, hm⟩ := rowStep_eq hs hn
  obtain ⟨v, s1, s2, s3⟩ := subview_row hs hn hl hp hi
  refine ⟨v, ?_, s2, s3⟩
  have := hri i hi
  unfold rowView
  rw [e, Outcome.bind_ok, if_neg (by rw [hs.dim]; simp), hm i hi, cint_nat (by omega), Outcome.bind_ok, hs.dim]
  simp only [List.length_append, List.length_singleton]
  rw [show ((lead.length + 1 : Nat) : Int) - (lead.length : Int) = 1 by omega, s1]

theorem rowViews_eq {n i : Nat} {lead : List Int} (hn : lead.prod = n) (hi : i < n) : ∀ (xs : List (Kind × Arr α)) (os cs : List Nat) (rs : List (List α)),
    Operands lead xs os cs → RowsOf i xs os cs rs → ∃ vs, rowViews lead.length i (xs.map (·.2)) = .ok vs ∧ Views vs rs ∧ rs.flatten.length = cs.sum
  | [], [], [], [], _, _ => ⟨[], rfl, trivial, rfl⟩
  | x :: xs, o :: os, c :: cs, r :: rs, h, g => by
    obtain ⟨v, e, hd, hs⟩ := rowView_eq h.1 hn hi
    obtain ⟨vs, e', hv, hl⟩ := rowViews_eq hn hi xs os cs rs h.2 g.2
    obtain ⟨⟨hr, hat⟩, _⟩ := g
    refine ⟨v :: vs, ?_, ⟨⟨o + c * i, by rw [hr]; exact hs, by rw [hd]; exact hat⟩, hv⟩, by simp [hr]; simpa using hl⟩
    simp only [List.map_cons]
    rw [rowViews, e, Outcome.bind_ok, e', Outcome.bind_ok]

/-- There is a row of each. -/
theorem rows_exist {n i : Nat} {lead : List Int} (hn : lead.prod = n) (hi : i < n) : ∀ (xs : List (Kind × Arr α)) (os cs : List Nat),
    Operands lead xs os cs → ∃ rs, RowsOf i xs os cs rs
  | [], [], [], _ => ⟨[], trivial⟩
  | x :: xs, o :: os, c :: cs, h => by
    obtain ⟨rs, g⟩ := rows_exist hn hi xs os cs h.2
    obtain ⟨hs, hp, hl⟩ := (show Shaped x.2 o (lead ++ [(c : Int)]) from h.1).shape
    obtain ⟨hr, hri⟩ := room hn hp
    obtain ⟨h1, h2⟩ := rowAt_take (hri i hi)
    exact ⟨_ :: rs, ⟨h2, h1⟩, g⟩

theorem rows_unique {n i : Nat} {lead : List Int} (hn : lead.prod = n) (hi : i < n) : ∀ (xs : List (Kind × Arr α)) (os cs : List Nat) (rs rs' : List (List α)),
    Operands lead xs os cs → RowsOf i xs os cs rs → RowsOf i xs os cs rs' → rs = rs'
  | [], [], [], [], [], _, _, _ => rfl
  | x :: xs, o :: os, c :: cs, r :: rs, r' :: rs', h, g, g' => by
    obtain ⟨hs, hp, hl⟩ := (show Shaped x.2 o (lead ++ [(c : Int)]) from h.1).shape
    obtain ⟨hr, hri⟩ := room hn hp
    have hi' := hri i hi
    have e1 := rowAt_eq g.1.2 (by have := g.1.1; omega)
    have e2 := rowAt_eq g'.1.2 (by have := g'.1.1; omega)
    rw [g.1.1] at e1
    rw [g'.1.1] at e2
    rw [rows_unique hn hi xs os cs rs rs' h.2 g.2 g'.2, e1, e2]

theorem sameLead_eq {a0 a : Arr α} {o0 o : Int} {lead : List Int} {c0 c : Int} (h0 : HasShape a0 o0 (lead ++ [c0])) (h : HasShape a o (lead ++ [c])) :
    ∀ (n d : Nat), d + n = lead.length → sameLead a0 a d n = .ok ()
  | 0, d, _ => rfl
  | n + 1, d, hd => by
    have hl : d < lead.length := by omega
    have e : ∀ z : Int, lead ++ [z] = lead.take d ++ lead[d] :: (lead.drop (d + 1) ++ [z]) := fun z => by
      rw [← List.cons_append, ← List.drop_eq_getElem_cons hl, ← List.append_assoc, List.take_append_drop]
    have h1 := h0.shape (e c0)
    have h2 := h.shape (e c)
    rw [List.length_take, Nat.min_eq_left (by omega)] at h1 h2
    rw [sameLead, h2, Outcome.bind_ok, h1, Outcome.bind_ok, if_neg (by simp), sameLead_eq h0 h n (d + 1) (by omega)]

theorem widths_eq {a0 : Arr α} {o0 c0 : Int} {lead : List Int} (h0 : HasShape a0 o0 (lead ++ [c0])) : ∀ (xs : List (Kind × Arr α)) (os cs : List Nat) (sum : Nat),
    Operands lead xs os cs → sum + cs.sum < 2147483648 → widths a0 (xs.map (·.2)) (sum : Int) = .ok ((sum + cs.sum : Nat) : Int)
  | [], [], [], sum, _, _ => rfl
  | x :: xs, o :: os, c :: cs, sum, h, hb => by
    obtain ⟨hs, hp, hl⟩ := (show Shaped x.2 o (lead ++ [(c : Int)]) from h.1).shape
    simp only [List.sum_cons] at hb ⊢
    simp only [List.map_cons]
    rw [widths, h0.dim, show (lead ++ [c0]).length - 1 = lead.length by simp, sameLead_eq h0 hs lead.length 0 (by omega), Outcome.bind_ok,
      shape_last hs, Outcome.bind_ok, show (sum : Int) + (c : Int) = ((sum + c : Nat) : Int) by push_cast; rfl, cint_nat (by omega), Outcome.bind_ok,
      widths_eq h0 xs os cs (sum + c) h.2 (by omega), Nat.add_assoc]

theorem concatAlloc_eq {a0 : Arr α} {o0 n c0 : Nat} {lead : List Int} (h0 : Shaped a0 o0 (lead ++ [(c0 : Int)])) (hlead : ∀ d ∈ lead, 0 < d) (hn : lead.prod = n) (hc : 0 < c0)
    {xs : List (Kind × Arr α)} {os cs : List Nat} (hx : Operands lead xs os cs) {C : Nat} (hC : c0 + cs.sum = C) {junk : List α} (hj : junk.length = n * C)
    (hb : n * C < 2147483648) : concatAlloc junk a0 (xs.map (·.2)) = .ok ⟨junk, some (0 :: flat (lead ++ [(C : Int)]))⟩ ∧
      ∀ d : List α, d.length = n * C → HasShape (⟨d, some (0 :: flat (lead ++ [(C : Int)]))⟩ : Arr α) ((0 : Nat) : Int) (lead ++ [(C : Int)]) ∧
        blockStep (⟨d, some (0 :: flat (lead ++ [(C : Int)]))⟩ : Arr α) 1 = .ok (C : Int) ∧ NewArray ⟨d, some (0 :: flat (lead ++ [(C : Int)]))⟩ (lead ++ [(C : Int)]) d ∧
        (lead ++ [(C : Int)]).prod + ((0 : Nat) : Int) ≤ d.length ∧ (d.length : Int) < 2 ^ 31 := by
  obtain ⟨hs, hp, hl⟩ := h0.shape
  obtain ⟨hr, hri⟩ := room hn hp
  have hn0 : 0 < n := by have := View.prod_pos hlead; omega
  have := hri 0 hn0
  have hCn : C ≤ n * C := Nat.le_mul_of_pos_left _ hn0
  obtain ⟨e1, hnew⟩ := newLast (w := C) hs hlead hn (by omega) junk hj hb
  refine ⟨?_, hnew⟩
  obtain ⟨x0, _, hl0⟩ := load_inside (data := a0.data) (i := (o0 : Int)) (by omega) (by omega)
  have h1 : shapeLoop a0 0 (lead ++ [(c0 : Int)]).length = .ok (lead ++ [(c0 : Int)]) := hs.shapeLoop [] _ rfl
  rw [hs.dim, h1, Outcome.bind_ok] at e1
  unfold concatAlloc
  rw [shape_last hs, Outcome.bind_ok, widths_eq hs xs os cs c0 hx (by omega), Outcome.bind_ok, hs.dim, h1, Outcome.bind_ok, hC, hs.offset]
  simp only [Outcome.bind_ok, hl0]
  exact e1

theorem concatVector_eq {k : Kind} (hk : k = .float ∨ k = .double ∨ k = .cfloat ∨ k = .cdouble) {n C : Nat} {lead : List Int} (hn : lead.prod = n) {out : Arr α} {dst : List α}
    (hd : dst.length = n * C) (ho : HasShape ({ out with data := dst } : Arr α) ((0 : Nat) : Int) (lead ++ [(C : Int)])) (hb : n * C < 2147483648)
    (hp : (lead ++ [(C : Int)]).prod + ((0 : Nat) : Int) ≤ dst.length) {i : Nat} (hi : i < n)
    {vs : List (Arr α)} {rs : List (List α)} (hv : Views vs rs) (hrs : rs.flatten.length = C) :
    ∃ d, concatVector k out lead.length ((C * i : Nat) : Int) vs dst = .ok d ∧ d.length = n * C ∧ RowAt d (C * i) rs.flatten ∧
      ∀ t, t < C * i ∨ C * i + C ≤ t → d[t]? = dst[t]? := by
  obtain ⟨ov, t1, t2, t3⟩ := subview_row ho hn (by rw [hd]; exact lt_max hb) hp hi
  obtain ⟨hr, hri⟩ := room hn hp
  have := hri i hi
  obtain ⟨d, e, l, f, g⟩ := copyAll_eq (q := 0 + C * i) vs rs 0 dst hv (by omega) (by omega)
  refine ⟨d, ?_, by omega, by simpa using f, fun t ht => g t (by omega)⟩
  have hdim : dim out = lead.length + 1 := by
    have := ho.dim
    simp only [List.length_append, List.length_singleton] at this
    exact this
  unfold concatVector
  rw [hdim, show ((lead.length + 1 : Nat) : Int) - (lead.length : Int) = 1 by omega, t1, Outcome.bind_ok, t3.offset, Outcome.bind_ok]
  rcases hk with rfl | rfl | rfl | rfl <;> exact e

end Libube.Reduce

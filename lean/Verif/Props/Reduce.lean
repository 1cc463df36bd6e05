import Verif.Lemmas.Reduce

/-! # Properties of sort, asum, iamax and concatenate (C101–C104) -/

namespace Libube.Reduce

open View Transpose Rows RowsSpec ReduceSpec ViewSpec

/-! ## C101 -/

/-- C101: `sort(x, x)` sorts each row of an array or a view of real numbers or characters and leaves everything else in its place.
    Missing for the full claim: `sort(x)` (`sort_new_throws`), complex numbers (`sort_complex_throws`) and the empty array
    (`sort_empty_undefined`). -/
theorem sort_rows_partial [LinearOrder α] (k : Kind) (hk : k = .char ∨ k = .int ∨ k = .long ∨ k = .float ∨ k = .double) (a : Arr α)
    (o n c : Nat) (lead : List Int) (ha : Shaped a o (lead ++ [(c : Int)])) (hn : lead.prod = n) (hc : 0 < c) :
    ∃ d, sort k a = .ok ⟨d, a.ip⟩ ∧ SortedRows a.data d o n c := by
  obtain ⟨hs, hp, hl⟩ := ha.shape
  obtain ⟨hr, hri⟩ := room hn hp
  have hbs := blockStep_eq hs
  simp only [List.length_singleton, List.prod_singleton] at hbs
  obtain ⟨d, e, g1, g2, g3⟩ := blocks_eq (sortVector k a) (c : Int) (c : Int) o c a.data.length
    (fun _ g q => (((List.range c).filterMap g).insertionSort (· ≤ ·))[q]?) n
    (fun i hi dst hd => by
      have hs' : HasShape ({ a with data := dst } : Arr α) (o : Int) (lead ++ [(c : Int)]) := with_data hs hd
      obtain ⟨v, s1, s2, s3⟩ := subview_row hs' hn (by rw [hd]; exact hl) (by rw [hd]; exact hp) hi
      have hin : o + c * i + c ≤ dst.length := by rw [hd]; exact hri i hi
      obtain ⟨d', e', f1, f2, f3⟩ := sortRange_eq hin (q := ((o + c * i : Nat) : Int)) rfl
      refine ⟨d', ?_, by rw [f1, hd], fun q hq => ?_, fun q hq => ?_⟩
      · unfold sortVector viewsOf
        simp only []
        rw [hs'.dim]
        simp only [List.length_append, List.length_singleton]
        rw [show ((lead.length + 1 : Nat) : Int) - (((lead.length + 1 : Nat) : Int) - 1) = 1 by omega,
          show (c : Int) * (i : Int) = ((c * i : Nat) : Int) by push_cast; rfl, s1]
        simp only [Outcome.bind_ok]
        rw [shape_last s3, s3.offset]
        simp only [Outcome.bind_ok, Int.toNat_natCast]
        rcases hk with rfl | rfl | rfl | rfl | rfl <;> exact e'
      · rw [filterMap_row hin]
        exact f2 q (by rw [List.length_insertionSort, (rowAt_take hin).2]; exact hq)
      · refine f3 q ?_
        by_contra hcon
        exact hq (q - (o + c * i)) (by omega) (by omega))
    (fun i g g' h q hq => by
      rw [List.filterMap_congr (g := g') fun t ht => h t (List.mem_range.mp ht)])
    0 n (by omega) a.data rfl
  refine ⟨d, ?_, g1, fun q hq => g3 q fun j _ hj t ht => ?_, fun i row hi hrow hat => ?_⟩
  · unfold sort broadcast
    rw [if_neg (by rw [hs.dim]; simp), hbs, hs.size]
    simp only [Outcome.bind_ok]
    rw [if_neg (by omega), List.prod_append, hn, List.prod_singleton, tdiv_blocks n c hc, e]
    rfl
  · have : c * j + c ≤ n * c := by
      calc c * j + c = c * (j + 1) := by ring
        _ ≤ c * n := Nat.mul_le_mul_left c hj
        _ = n * c := Nat.mul_comm c n
    omega
  · have hin := hri i hi
    have hrow' := rowAt_eq hat (by omega)
    rw [hrow] at hrow'
    refine ⟨row.insertionSort (· ≤ ·), List.perm_insertionSort _ _, List.pairwise_insertionSort _ _, fun t ht => ?_⟩
    rw [List.length_insertionSort, hrow] at ht
    rw [g2 i (by omega) hi t ht]
    rw [filterMap_row hin, ← hrow']

/-- Rows 3, 1, 2 and 9, 8, 7 behind one element. -/
def unsorted : Arr Int := ⟨[5, 3, 1, 2, 9, 8, 7, 0], some [1, 2, 3, 3, 1]⟩
example : Shaped unsorted 1 ([2] ++ [((3 : Nat) : Int)]) ∧ sort .long unsorted = .ok ⟨[5, 1, 2, 3, 7, 8, 9, 0], some [1, 2, 3, 3, 1]⟩ :=
  ⟨.view 1 [2, 3] (by decide) (by decide), by decide⟩

/-- C101 fails for the form that returns the result: whatever the array, if it has an element then `sort(x)` throws. -/
theorem sort_new_throws {α : Type} (a : Arr α) (o n c : Nat) (lead : List Int) (ha : Shaped a o (lead ++ [(c : Int)])) (hn : lead.prod = n) (hn0 : 0 < n) (hc : 0 < c)
    (junk : List α) (hj : junk.length = a.data.length) : sortNew junk a = .thrown (.error "Sort::vector: in place only for the moment") := by
  obtain ⟨hs, hp, hl⟩ := ha.shape
  have hbs := blockStep_eq hs
  simp only [List.length_singleton, List.prod_singleton] at hbs
  have ho : HasShape ({ a with data := junk } : Arr α) (o : Int) (lead ++ [(c : Int)]) := with_data hs hj
  have hbo := blockStep_eq ho
  simp only [List.length_singleton, List.prod_singleton] at hbo
  obtain ⟨m, rfl⟩ : ∃ m, n = m + 1 := ⟨n - 1, by omega⟩
  obtain ⟨iv, s1, s2, s3⟩ := subview_row hs hn hl hp (i := 0) (by omega)
  obtain ⟨ov, t1, t2, t3⟩ := subview_row ho hn (by rw [hj]; exact hl) (by rw [hj]; exact hp) (i := 0) (by omega)
  simp only [Nat.mul_zero] at s1 t1
  unfold sortNew broadcast
  simp only []
  rw [if_neg (by rw [hs.dim]; simp), hbs, hs.size, hbo]
  simp only [Outcome.bind_ok]
  rw [if_neg (by omega), List.prod_append, hn, List.prod_singleton, tdiv_blocks (m + 1) c hc]
  unfold blocks viewsOf
  simp only []
  rw [hs.dim, ho.dim]
  simp only [List.length_append, List.length_singleton]
  rw [show ((lead.length + 1 : Nat) : Int) - (((lead.length + 1 : Nat) : Int) - 1) = 1 by omega,
    show (c : Int) * ((0 : Nat) : Int) = ((0 : Nat) : Int) by simp, s1]
  simp only [Outcome.bind_ok]
  rw [t1]
  rfl

example : sortNew [0, 0, 0] (⟨[3, 1, 2], none⟩ : Arr Int) = .thrown (.error "Sort::vector: in place only for the moment") := by decide

/-- C101 fails for complex numbers: there is no order on them, and it throws. -/
theorem sort_complex_throws [LinearOrder α] (k : Kind) (hk : k = .cfloat ∨ k = .cdouble) (a : Arr α) (o n c : Nat) (lead : List Int)
    (ha : Shaped a o (lead ++ [(c : Int)])) (hn : lead.prod = n) (hn0 : 0 < n) (hc : 0 < c) : sort k a = .thrown (.error "Sort::vector: Unknown type") := by
  obtain ⟨hs, hp, hl⟩ := ha.shape
  have hbs := blockStep_eq hs
  simp only [List.length_singleton, List.prod_singleton] at hbs
  obtain ⟨m, rfl⟩ : ∃ m, n = m + 1 := ⟨n - 1, by omega⟩
  obtain ⟨iv, s1, s2, s3⟩ := subview_row hs hn hl hp (i := 0) (by omega)
  simp only [Nat.mul_zero] at s1
  unfold sort broadcast
  rw [if_neg (by rw [hs.dim]; simp), hbs, hs.size]
  simp only [Outcome.bind_ok]
  rw [if_neg (by omega), List.prod_append, hn, List.prod_singleton, tdiv_blocks (m + 1) c hc]
  unfold blocks sortVector viewsOf
  simp only []
  rw [hs.dim]
  simp only [List.length_append, List.length_singleton]
  rw [show ((lead.length + 1 : Nat) : Int) - (((lead.length + 1 : Nat) : Int) - 1) = 1 by omega,
    show (c : Int) * ((0 : Nat) : Int) = ((0 : Nat) : Int) by simp, s1]
  simp only [Outcome.bind_ok]
  rw [shape_last s3, s3.offset]
  rcases hk with rfl | rfl <;> rfl

example : sort .cfloat unsorted = .thrown (.error "Sort::vector: Unknown type") := by decide

/-- C101 fails for the empty array: an integer is divided by zero. -/
theorem sort_empty_undefined [LinearOrder α] (k : Kind) : sort k (⟨[], none⟩ : Arr α) = .ub .divZero := rfl

/-! ## C102 -/

theorem asumScalar_eq [Ring α] [LinearOrder α] {k : Kind} (hk : k ≠ .cdouble) (a out : Arr α) :
    asumScalar k a out = broadcast 1 (asumVector k a out) a out := if_neg hk

/-- C102 for one dimension: a number, the sum of the absolute values of the elements.
    Missing for the full claim: integers and complex numbers (`asum_kind_throws`, `asum_cdouble_undefined`), the empty array (`asum_empty_undefined`). -/
theorem asum_vector_partial [Ring α] [LinearOrder α] (k : Kind) (hk : k = .float ∨ k = .double) (a : Arr α) (o : Nat) (row : List α)
    (ha : Shaped a o [(row.length : Int)]) (hr : row ≠ []) (hx : RowAt a.data o row) (junk : List α) :
    asum k junk a = .ok ⟨[(row.map fun x => |x|).sum], none⟩ := by
  obtain ⟨hs, hp, hl⟩ := ha.shape
  have hs' : HasShape a (o : Int) ([] ++ [(row.length : Int)]) := hs
  have hc : 0 < row.length := List.length_pos_iff.mpr hr
  have hbi := blockStep_eq hs'
  simp only [List.length_singleton, List.prod_singleton] at hbi
  have hal : asumAlloc k junk a = .ok ⟨[0], none⟩ := by
    unfold asumAlloc
    rcases hk with rfl | rfl <;> exact if_neg (by rw [hs.dim]; simp)
  have ht := tdiv_blocks 1 row.length hc
  rw [show ((1 : Nat) : Int) * (row.length : Int) = row.length by simp] at ht
  unfold asum
  rw [hal]
  simp only [Outcome.bind_ok]
  rw [asumScalar_eq (by intro h; subst h; simp at hk)]
  unfold broadcast
  rw [if_neg (by rw [hs.dim]; simp), hbi, hs.size, show blockStep (⟨[0], none⟩ : Arr α) 1 = .ok 1 from rfl]
  simp only [Outcome.bind_ok]
  rw [if_neg (by omega), List.prod_singleton, ht]
  unfold blocks asumVector
  rw [shape_last hs', hs.offset]
  simp only [Outcome.bind_ok, Int.toNat_natCast]
  rw [asumRow_eq hx (q := (o : Int) + (row.length : Int) * ((0 : Nat) : Int)) (by simp) rfl]
  rcases hk with rfl | rfl <;> rfl

example : Shaped (⟨[1, -2, 3, -4], some [1, 3, 1]⟩ : Arr Int) 1 [(([-2, 3, -4] : List Int).length : Int)] ∧ RowAt [1, -2, 3, -4] 1 [(-2 : Int), 3, -4] ∧
    asum .float [] (⟨[1, -2, 3, -4], some [1, 3, 1]⟩ : Arr Int) = .ok ⟨[9], none⟩ :=
  ⟨.view 1 [3] (by decide) (by decide), by unfold RowAt; decide, by decide⟩

/-- C102 for several dimensions: an array with last dimension 1 of the sums for the rows.  Missing: as for `asum_vector_partial`. -/
theorem asum_rows_partial [Ring α] [LinearOrder α] (k : Kind) (hk : k = .float ∨ k = .double) (a : Arr α)
    (o n c : Nat) (lead : List Int) (ha : Shaped a o (lead ++ [(c : Int)])) (hlead : ∀ d ∈ lead, 0 < d) (hne : lead ≠ [])
    (hn : lead.prod = n) (hc : 0 < c) (junk : List α) (hj : junk.length = n) :
    ∃ out d, asum k junk a = .ok out ∧ NewArray out (lead ++ [1]) d ∧
      ∀ i row, i < n → row.length = c → RowAt a.data (o + c * i) row → d[i]? = some (row.map fun x => |x|).sum := by
  obtain ⟨hs, hp, hl⟩ := ha.shape
  obtain ⟨hr, hri⟩ := room hn hp
  have hnc : n ≤ n * c := Nat.le_mul_of_pos_right _ hc
  obtain ⟨e1, hnew⟩ := newLast (w := 1) hs hlead hn (by omega) junk (by omega) (by omega)
  simp only [Nat.mul_one, Nat.cast_one] at e1 hnew
  obtain ⟨d, e2, hd, g⟩ := broadcast_rows (b := 0) (w := 1) (v := fun i _ => (((a.data.drop (o + c * i)).take c).map fun x => |x|).sum)
    (f := asumVector k a ⟨junk, some (0 :: flat (lead ++ [(1 : Int)]))⟩) hs hn hc (hnew junk hj).2.1 hj (by
      intro i hi dst hdst
      obtain ⟨h1, h2⟩ := rowAt_take (hri i hi)
      have e := asumRow_eq h1 (q := (o : Int) + ((c * i : Nat) : Int)) (by push_cast; rfl) h2
      generalize (((a.data.drop (o + c * i)).take c).map fun x => |x|).sum = z at e ⊢
      have w := ((Wrote.zero dst i (fun _ => (0 : α))).extend (by omega) z).congr (w := fun _ => z) (by intro j hj; rw [if_pos (by omega)])
      refine ⟨dst.set i z, ?_, by simpa using w⟩
      unfold asumVector
      rw [shape_last hs, hs.offset, (hnew junk hj).1.offset]
      simp only [Outcome.bind_ok, Int.toNat_natCast]
      rw [e]
      have hst := Dot.store_at (d := dst) (i := ((0 : Nat) : Int) + ((1 * i : Nat) : Int)) (n := i) z (by simp) (by omega)
      rcases hk with rfl | rfl <;> exact hst)
  refine ⟨⟨d, some (0 :: flat (lead ++ [(1 : Int)]))⟩, d, ?_, (hnew d hd).2.2.1, fun i row hi hrow hat => ?_⟩
  · have hal : asumAlloc k junk a = .ok ⟨junk, some (0 :: flat (lead ++ [(1 : Int)]))⟩ := by
      unfold asumAlloc
      have hl1 := List.length_pos_iff.mpr hne
      rcases hk with rfl | rfl <;> exact (if_pos (by rw [hs.dim]; simp; exact hl1)).trans e1
    unfold asum
    rw [hal]
    simp only [Outcome.bind_ok]
    rw [asumScalar_eq (by intro h; subst h; simp at hk), e2]
    rfl
  · have := g i hi 0 (by omega)
    rw [Nat.zero_add, Nat.one_mul, Nat.add_zero] at this
    rw [this, rowAt_eq hat (by have := hri i hi; omega), hrow]

example : asum .double [0, 0] (⟨[1, -2, -3, 4], some [0, 2, 2, 2, 1]⟩ : Arr Int) = .ok ⟨[3, 7], some [0, 2, 1, 1, 1]⟩ := by decide

/-- C102 fails for integers, characters and `cfloat`: `asum` of an array of them throws. -/
theorem asum_kind_throws [Ring α] [LinearOrder α] (k : Kind) (hk : k = .char ∨ k = .int ∨ k = .long ∨ k = .cfloat) (a : Arr α)
    (o c : Nat) (ha : Shaped a o [(c : Int)]) (hc : 0 < c) (junk : List α) : asum k junk a = .thrown (.error "ASum::vector: Unknown type") := by
  obtain ⟨hs, hp, hl⟩ := ha.shape
  have hs' : HasShape a (o : Int) ([] ++ [(c : Int)]) := hs
  have hbi := blockStep_eq hs'
  simp only [List.length_singleton, List.prod_singleton] at hbi
  have hal : ∃ l, asumAlloc k junk a = .ok ⟨l, none⟩ := by
    unfold asumAlloc
    rcases hk with rfl | rfl | rfl | rfl
    · exact ⟨_, rfl⟩
    · exact ⟨_, rfl⟩
    · exact ⟨_, rfl⟩
    · exact ⟨_, if_neg (by rw [hs.dim]; simp)⟩
  obtain ⟨l, hal⟩ := hal
  have ht := tdiv_blocks 1 c hc
  rw [show ((1 : Nat) : Int) * (c : Int) = c by simp] at ht
  unfold asum
  rw [hal]
  simp only [Outcome.bind_ok]
  rw [asumScalar_eq (by intro h; subst h; simp at hk)]
  unfold broadcast
  rw [if_neg (by rw [hs.dim]; simp), hbi, hs.size, show blockStep (⟨l, none⟩ : Arr α) 1 = .ok (l.length : Int) from rfl]
  simp only [Outcome.bind_ok]
  rw [if_neg (by omega), List.prod_singleton, ht]
  unfold blocks asumVector
  rw [shape_last hs', hs.offset]
  rcases hk with rfl | rfl | rfl | rfl <;> rfl

example : asum .int [] (⟨[1, 2, 3], none⟩ : Arr Int) = .thrown (.error "ASum::vector: Unknown type") := by decide

/-- C102 fails for `cdouble`: the result is accessed as `cdouble` though it is a `double` or an array of them. -/
theorem asum_cdouble_undefined [Ring α] [LinearOrder α] (a : Arr α) (o n c : Nat) (lead : List Int) (ha : Shaped a o (lead ++ [(c : Int)]))
    (hlead : ∀ d ∈ lead, 0 < d) (hn : lead.prod = n) (hc : 0 < c) (junk : List α) (hj : junk.length = n) :
    asum .cdouble junk a = if lead = [] then .ub .nullDeref else .ub .typePun := by
  obtain ⟨hs, hp, hl⟩ := ha.shape
  obtain ⟨hr, hri⟩ := room hn hp
  have hnc : n ≤ n * c := Nat.le_mul_of_pos_right _ hc
  unfold asum
  by_cases hne : lead = []
  · subst hne
    rw [show asumAlloc .cdouble junk a = .ok ⟨[0], none⟩ from if_neg (by rw [hs.dim]; simp)]
    simp only [Outcome.bind_ok]
    unfold asumScalar asumFirst
    rw [if_pos rfl]
    rw [if_neg (by rw [hs.dim]; simp)]
    rfl
  · obtain ⟨e1, _⟩ := newLast (w := 1) hs hlead hn (by omega) junk (by omega) (by omega)
    simp only [Nat.mul_one, Nat.cast_one] at e1
    have hl1 := List.length_pos_iff.mpr hne
    have hd : dim a > 1 := by rw [hs.dim]; simp; exact hl1
    rw [show asumAlloc .cdouble junk a = _ from (if_pos hd).trans e1]
    simp only [Outcome.bind_ok]
    unfold asumScalar asumFirst
    rw [if_pos rfl]
    rw [if_pos hd, if_neg hne]
    rfl

example : asum .cdouble [] (⟨[1, 2, 3], none⟩ : Arr Int) = .ub .nullDeref ∧
    asum .cdouble [0, 0] (⟨[1, -2, -3, 4], some [0, 2, 2, 2, 1]⟩ : Arr Int) = .ub .typePun := by decide

/-- C102 fails for the empty array: an integer is divided by zero. -/
theorem asum_empty_undefined [Ring α] [LinearOrder α] (k : Kind) (hk : k ≠ .cdouble) (junk : List α) : asum k junk (⟨[], none⟩ : Arr α) = .ub .divZero := by
  cases k <;> first | exact absurd rfl hk | rfl

/-! ## C103 -/

theorem iamax_blocks [LinearOrder β] {mag : α → β} {k : Kind} (hk : k = .float ∨ k = .double ∨ k = .cfloat) {a : Arr α} {o n c : Nat} {lead : List Int}
    (hs : HasShape a o (lead ++ [(c : Int)])) (hp : (lead ++ [(c : Int)]).prod + (o : Int) ≤ a.data.length) (hn : lead.prod = n) (hc : 0 < c)
    {out : Arr Int} (ho : offset out = .ok 0) (hb : blockStep out 1 = .ok 1) (hl : out.data.length = n) :
    ∃ d, broadcastTo (iamaxVector mag k a out) a out = .ok d ∧ d.length = n ∧
      ∀ i row, i < n → row.length = c → RowAt a.data (o + c * i) row → ∃ r : Nat, d[i]? = some (r : Int) ∧ FirstLargest mag row r := by
  obtain ⟨hr, hri⟩ := room hn hp
  have hbi := blockStep_eq hs
  simp only [List.length_singleton, List.prod_singleton] at hbi
  have hrow : ∀ i, i < n → ∃ r : Nat, iamaxRow mag c a.data ((o : Int) + (c : Int) * (i : Int)) = .ok (r : Int) ∧ FirstLargest mag ((a.data.drop (o + c * i)).take c) r := fun i hi => by
    obtain ⟨h1, h2⟩ := rowAt_take (hri i hi)
    exact iamaxRow_eq h1 (by push_cast; rfl) h2 hc
  obtain ⟨R, hR⟩ : ∃ R : Nat → Nat, ∀ i, i < n → iamaxRow mag c a.data ((o : Int) + (c : Int) * (i : Int)) = .ok (R i : Int) ∧
      FirstLargest mag ((a.data.drop (o + c * i)).take c) (R i) := by
    classical
    exact ⟨fun i => if h : i < n then Classical.choose (hrow i h) else 0, fun i hi => by simp only [dif_pos hi]; exact Classical.choose_spec (hrow i hi)⟩
  obtain ⟨d, e, g1, g2, _⟩ := blocks_eq (iamaxVector mag k a out) (c : Int) 1 0 1 n (fun i _ _ => some (R i : Int)) n
    (fun i hi dst hd => by
      have hst := Dot.store_at (d := dst) (i := 0 + 1 * (i : Int)) (n := i) (R i : Int) (by simp) (by omega)
      refine ⟨dst.set i (R i : Int), ?_, by simpa using hd, fun q hq => ?_, fun q hq => ?_⟩
      · unfold iamaxVector
        rw [if_neg (show k ≠ .cdouble by rcases hk with rfl | rfl | rfl <;> decide), shape_last hs, hs.offset, ho]
        simp only [Outcome.bind_ok, Int.toNat_natCast]
        rcases hk with rfl | rfl | rfl <;> simp only [] <;> rw [(hR i hi).1] <;> exact hst
      · obtain rfl : q = 0 := by omega
        rw [show 0 + 1 * i + 0 = i by omega, List.getElem?_set_self (by omega)]
      · have := hq 0 (by omega)
        rw [List.getElem?_set_ne (by omega)])
    (fun _ _ _ _ _ _ => rfl) 0 n (by omega) out.data hl
  refine ⟨d, ?_, g1, fun i row hi hrow hat => ⟨R i, ?_, ?_⟩⟩
  · unfold broadcastTo
    rw [if_neg (by rw [hs.dim]; simp), hbi, hs.size, hb]
    simp only [Outcome.bind_ok]
    rw [if_neg (by omega), List.prod_append, hn, List.prod_singleton, tdiv_blocks n c hc]
    exact e
  · have := g2 i (by omega) hi 0 (by omega)
    rwa [show 0 + 1 * i + 0 = i by omega] at this
  · have := (hR i hi).2
    have hr' := rowAt_eq hat (by have := hri i hi; omega)
    rw [hrow] at hr'
    rwa [← hr'] at this

/-- C103 for one dimension: a number, the position of the first element of largest magnitude, which for real numbers is the absolute value.
    Missing for the full claim: complex numbers, for which the magnitude is not the absolute value (`iamax_complex_magnitude`), integers
    (`iamax_int_throws`), `cdouble` (`iamax_cdouble_aborts`), a number (`iamax_number_aborts`) and the empty array (`iamax_empty_undefined`). -/
theorem iamax_vector_partial [LinearOrder β] (mag : α → β) (k : Kind) (hk : k = .float ∨ k = .double ∨ k = .cfloat) (a : Arr α) (o : Nat) (row : List α)
    (ha : Shaped a o [(row.length : Int)]) (hr : row ≠ []) (hx : RowAt a.data o row) (junk : List Int) :
    ∃ r : Nat, iamax mag k junk a = .ok ⟨[(r : Int)], none⟩ ∧ FirstLargest mag row r := by
  obtain ⟨hs, hp, hl⟩ := ha.shape
  have hs' : HasShape a (o : Int) ([] ++ [(row.length : Int)]) := hs
  obtain ⟨d, e, hd, g⟩ := iamax_blocks (mag := mag) hk hs' hp (n := 1) rfl (List.length_pos_iff.mpr hr) (out := ⟨[0], none⟩) rfl rfl rfl
  obtain ⟨r, h1, h2⟩ := g 0 row (by omega) rfl (by simpa using hx)
  refine ⟨r, ?_, h2⟩
  unfold iamax iamaxAlloc
  rw [if_neg (by rw [hs.dim]; simp)]
  simp only [Outcome.bind_ok]
  rw [e]
  match d, hd with
  | [z], _ =>
    simp only [List.getElem?_cons_zero, Option.some.injEq] at h1
    rw [h1]
    rfl

example : Shaped (⟨[9, -2, 3, -4, 4], some [1, 4, 1]⟩ : Arr Int) 1 [(([-2, 3, -4, 4] : List Int).length : Int)] ∧ RowAt [9, -2, 3, -4, 4] 1 [(-2 : Int), 3, -4, 4] ∧
    iamax (fun x => |x|) .float [] (⟨[9, -2, 3, -4, 4], some [1, 4, 1]⟩ : Arr Int) = .ok ⟨[2], none⟩ :=
  ⟨.view 1 [4] (by decide) (by decide), by unfold RowAt; decide, by decide⟩

/-- C103 for several dimensions: an array with last dimension 1 of the positions within the rows.  Missing: as for `iamax_vector_partial`. -/
theorem iamax_rows_partial [LinearOrder β] (mag : α → β) (k : Kind) (hk : k = .float ∨ k = .double ∨ k = .cfloat) (a : Arr α)
    (o n c : Nat) (lead : List Int) (ha : Shaped a o (lead ++ [(c : Int)])) (hlead : ∀ d ∈ lead, 0 < d) (hne : lead ≠ [])
    (hn : lead.prod = n) (hc : 0 < c) (junk : List Int) (hj : junk.length = n) :
    ∃ out d, iamax mag k junk a = .ok out ∧ NewArray out (lead ++ [1]) d ∧
      ∀ i row, i < n → row.length = c → RowAt a.data (o + c * i) row → ∃ r : Nat, d[i]? = some (r : Int) ∧ FirstLargest mag row r := by
  obtain ⟨hs, hp, hl⟩ := ha.shape
  obtain ⟨hr, hri⟩ := room hn hp
  have hnc : n ≤ n * c := Nat.le_mul_of_pos_right _ hc
  obtain ⟨e1, hnew⟩ := newLast (w := 1) hs hlead hn (by omega) junk (by omega) (by omega)
  simp only [Nat.mul_one, Nat.cast_one] at e1 hnew
  obtain ⟨d, e, hd, g⟩ := iamax_blocks (mag := mag) hk hs hp hn hc (out := ⟨junk, some (0 :: flat (lead ++ [(1 : Int)]))⟩) rfl (hnew junk hj).2.1 hj
  refine ⟨⟨d, some (0 :: flat (lead ++ [(1 : Int)]))⟩, d, ?_, (hnew d hd).2.2.1, g⟩
  have hl1 := List.length_pos_iff.mpr hne
  have hal : iamaxAlloc junk a = .ok ⟨junk, some (0 :: flat (lead ++ [(1 : Int)]))⟩ := by
    unfold iamaxAlloc
    exact (if_pos (by rw [hs.dim]; simp; exact hl1)).trans e1
  unfold iamax
  rw [hal]
  simp only [Outcome.bind_ok]
  rw [e]
  rfl

example : iamax (fun x => |x|) .double [0, 0] (⟨[1, -2, -4, 3], some [0, 2, 2, 2, 1]⟩ : Arr Int) = .ok ⟨[1, 0], some [0, 2, 1, 1, 1]⟩ := by decide

/-- C103 fails for complex numbers: BLAS compares the sums of the absolute values of the parts.  The absolute value of 3 + 3i is less than that of 5. -/
theorem iamax_complex_magnitude : ∃ row : List (Int × Int),
    iamax (fun z : Int × Int => |z.1| + |z.2|) .cfloat [] ⟨row, none⟩ = .ok ⟨[0], none⟩ ∧
      ¬ FirstLargest (fun z : Int × Int => z.1 * z.1 + z.2 * z.2) row 0 := by
  refine ⟨[(3, 3), (5, 0)], by decide, ?_⟩
  rintro ⟨x, hx, h, -⟩
  simp only [List.getElem?_cons_zero, Option.some.injEq] at hx
  subst hx
  have := h (5, 0) (by simp)
  revert this
  decide

/-- C103 fails for `cdouble`: an assertion that the argument is an array ends the program. -/
theorem iamax_cdouble_aborts [LinearOrder β] (mag : α → β) (a : Arr α)
    (o c : Nat) (ha : Shaped a o [(c : Int)]) (hc : 0 < c) (junk : List Int) : iamax mag .cdouble junk a = .abort := by
  obtain ⟨hs, hp, hl⟩ := ha.shape
  have hs' : HasShape a (o : Int) ([] ++ [(c : Int)]) := hs
  have hbi := blockStep_eq hs'
  simp only [List.length_singleton, List.prod_singleton] at hbi
  have ht := tdiv_blocks 1 c hc
  rw [show ((1 : Nat) : Int) * (c : Int) = c by simp] at ht
  unfold iamax iamaxAlloc broadcastTo
  rw [if_neg (by rw [hs.dim]; simp)]
  simp only [Outcome.bind_ok]
  rw [if_neg (by rw [hs.dim]; simp), hbi, hs.size, show blockStep (⟨[0], none⟩ : Arr Int) 1 = .ok 1 from rfl]
  simp only [Outcome.bind_ok]
  rw [if_neg (by omega), List.prod_singleton, ht]
  rfl

example : iamax (fun z : Int × Int => |z.1| + |z.2|) .cdouble [] ⟨[(3, 3), (5, 0)], none⟩ = .abort := by decide

/-- C103 fails for integers and characters: it throws. -/
theorem iamax_int_throws [LinearOrder β] (mag : α → β) (k : Kind) (hk : k = .char ∨ k = .int ∨ k = .long) (a : Arr α)
    (o c : Nat) (ha : Shaped a o [(c : Int)]) (hc : 0 < c) (junk : List Int) : iamax mag k junk a = .thrown (.error "IAMax::vector: Unknown type") := by
  obtain ⟨hs, hp, hl⟩ := ha.shape
  have hs' : HasShape a (o : Int) ([] ++ [(c : Int)]) := hs
  have hbi := blockStep_eq hs'
  simp only [List.length_singleton, List.prod_singleton] at hbi
  have ht := tdiv_blocks 1 c hc
  rw [show ((1 : Nat) : Int) * (c : Int) = c by simp] at ht
  unfold iamax iamaxAlloc broadcastTo
  rw [if_neg (by rw [hs.dim]; simp)]
  simp only [Outcome.bind_ok]
  rw [if_neg (by rw [hs.dim]; simp), hbi, hs.size, show blockStep (⟨[0], none⟩ : Arr Int) 1 = .ok 1 from rfl]
  simp only [Outcome.bind_ok]
  rw [if_neg (by omega), List.prod_singleton, ht]
  unfold blocks iamaxVector
  rw [shape_last hs', hs.offset]
  rcases hk with rfl | rfl | rfl <;> rfl

example : iamax (fun x => |x|) .int [] (⟨[1, 2, 3], none⟩ : Arr Int) = .thrown (.error "IAMax::vector: Unknown type") := by decide

/-- C103 fails for a number: an assertion does not hold. -/
theorem iamax_number_aborts (x : α) : iamaxNum x = .abort := rfl

/-- C103 fails for the empty array: an integer is divided by zero. -/
theorem iamax_empty_undefined [LinearOrder β] (mag : α → β) (k : Kind) (junk : List Int) : iamax mag k junk (⟨[], none⟩ : Arr α) = .ub .divZero := rfl

/-! ## C104 -/

/-- C104: operands with the same leading dimensions, any number of them, become one array with the same leading dimensions, each row of which consists of the
    corresponding rows of the operands one after another.
    Missing for the full claim: integers and characters (`concat_int_throws`), a first operand without elements (`concat_empty_first`).  Operands of different
    types throw (`concat_types_throw`), and so do different leading dimensions (`concat_lead_throws`), but not always different numbers of dimensions
    (`concat_more_dims_loses`, `concat_fewer_dims_junk`). -/
theorem concat_rows_partial {α : Type} (k : Kind) (hk : k = .float ∨ k = .double ∨ k = .cfloat ∨ k = .cdouble) (a0 : Arr α) (o0 n c0 : Nat) (lead : List Int)
    (h0 : Operand lead (k, a0) o0 c0) (hlead : ∀ d ∈ lead, 0 < d) (hn : lead.prod = n) (hc : 0 < c0)
    (xs : List (Kind × Arr α)) (os cs : List Nat) (hx : Operands lead xs os cs) (hkx : ∀ x ∈ xs, x.1 = k)
    (C : Nat) (hC : c0 + cs.sum = C) (junk : List α) (hj : junk.length = n * C) (hb : n * C < 2147483648) :
    ∃ out d, concatenate junk k a0 xs = .ok out ∧ NewArray out (lead ++ [(C : Int)]) d ∧
      ∀ i r0 rs, i < n → RowsOf i ((k, a0) :: xs) (o0 :: os) (c0 :: cs) (r0 :: rs) → RowAt d (C * i) (r0 ++ rs.flatten) := by
  have hall : Operands lead ((k, a0) :: xs) (o0 :: os) (c0 :: cs) := ⟨h0, hx⟩
  obtain ⟨e1, hnew⟩ := concatAlloc_eq h0 hlead hn hc hx hC hj hb
  obtain ⟨stepO, es, hm⟩ := rowStep_eq (hnew junk hj).1 hn
  have loop : ∀ (m i : Nat) (dst : List α), i + m = n → dst.length = n * C →
      ∃ d, concatRows k ⟨junk, some (0 :: flat (lead ++ [(C : Int)]))⟩ lead.length stepO (a0 :: xs.map (·.2)) i m dst = .ok d ∧ d.length = n * C ∧
        (∀ j rs, i ≤ j → j < n → RowsOf j ((k, a0) :: xs) (o0 :: os) (c0 :: cs) rs → RowAt d (C * j) rs.flatten) ∧ ∀ t, t < C * i → d[t]? = dst[t]? := by
    intro m
    induction m with
    | zero => exact fun i dst hi hd => ⟨dst, rfl, hd, fun j rs h1 h2 => by omega, fun _ _ => rfl⟩
    | succ m ih =>
      intro i dst hi hd
      obtain ⟨rs, hrs⟩ := rows_exist hn (i := i) (by omega) _ _ _ hall
      obtain ⟨vs, ev, hv, hlen⟩ := rowViews_eq hn (i := i) (by omega) _ _ _ _ hall hrs
      obtain ⟨so, _, _, hp, hl⟩ := hnew dst hd
      have hlen' : rs.flatten.length = C := by rw [hlen, List.sum_cons, hC]
      obtain ⟨d1, ed, l1, f1, g1⟩ := concatVector_eq hk hn (out := ⟨junk, some (0 :: flat (lead ++ [(C : Int)]))⟩) hd so hb hp (i := i) (by omega) hv hlen'
      obtain ⟨d, e, l, f, g⟩ := ih (i + 1) d1 (by omega) l1
      refine ⟨d, ?_, l, fun j rs' h1 h2 hj' => ?_, fun t ht => ?_⟩
      · have hci : C * i + C ≤ n * C := by
          calc C * i + C = C * (i + 1) := by ring
            _ ≤ C * n := Nat.mul_le_mul_left C (by omega)
            _ = n * C := Nat.mul_comm C n
        simp only [List.map_cons] at ev
        rw [concatRows, ev, Outcome.bind_ok, hm i (by omega), cint_nat (by omega), Outcome.bind_ok, ed, Outcome.bind_ok, e]
      · by_cases hji : j = i
        · subst hji
          rw [← rows_unique hn h2 _ _ _ _ _ hall hrs hj']
          intro t ht
          rw [hlen'] at ht
          rw [g _ (by rw [Nat.mul_add]; omega)]
          exact f1 t (by omega)
        · exact f j rs' (by omega) h2 hj'
      · rw [g t (by rw [Nat.mul_add]; omega), g1 t (by omega)]
  obtain ⟨d, e, l, f, _⟩ := loop n 0 junk (by omega) hj
  refine ⟨⟨d, some (0 :: flat (lead ++ [(C : Int)]))⟩, d, ?_, (hnew d l).2.2.1, fun i r0 rs hi h => f i (r0 :: rs) (by omega) hi h⟩
  unfold concatenate
  rw [e1, Outcome.bind_ok, if_neg (by
    simp only [List.any_eq_true, not_exists, not_and, decide_eq_true_eq, not_not]
    exact hkx)]
  have hd1 : dim (⟨junk, some (0 :: flat (lead ++ [(C : Int)]))⟩ : Arr α) - 1 = lead.length := by
    rw [(hnew junk hj).1.dim]; simp
  have hops : concatOps lead.length stepO (lead ++ [(C : Int)]).prod = .ok n := by
    unfold concatOps
    cases hl : lead using List.reverseRecOn with
    | nil =>
      subst hl
      have : n = 1 := by simpa using hn.symm
      subst this
      rfl
    | append_singleton pre x _ =>
      have hst : stepO = C := by
        have h := (hnew junk hj).1.stride (pre := pre) (d := x) (suf := [(C : Int)]) (by rw [hl]; simp)
        unfold rowStep at es
        rw [if_pos (by rw [hl]; simp), show ((lead.length : Nat) : Int) - 1 = (pre.length : Int) by rw [hl]; simp, h] at es
        simp only [List.prod_singleton, Outcome.ok.injEq] at es
        exact es.symm
      rw [← hl, if_pos (by rw [hl]; simp), hst, if_neg (by omega), List.prod_append, hn, List.prod_singleton, tdiv_blocks n C (by omega)]
  rw [hd1, es, Outcome.bind_ok, (hnew junk hj).1.size, Outcome.bind_ok, hops, Outcome.bind_ok, e]
  rfl

/-- Rows 1, 2 and 3, 4. -/
def left22 : Arr Int := ⟨[1, 2, 3, 4], some [0, 2, 2, 2, 1]⟩
/-- Rows 6 and 7, behind one element. -/
def right21 : Arr Int := ⟨[5, 6, 7], some [1, 2, 1, 1, 1]⟩
example : Operand [2] (.float, left22) 0 2 ∧ Operands [2] [(.float, right21), (.float, left22)] [1, 0] [1, 2] ∧
    concatenate [0, 0, 0, 0, 0, 0, 0, 0, 0, 0] .float left22 [(.float, right21), (.float, left22)] = .ok ⟨[1, 2, 6, 1, 2, 3, 4, 7, 3, 4], some [0, 2, 5, 5, 1]⟩ :=
  ⟨.view 0 [2, 2] (by decide) (by decide), ⟨.view 1 [2, 1] (by decide) (by decide), .view 0 [2, 2] (by decide) (by decide), trivial⟩, by decide⟩

/-- Vectors of 2, 3 and no elements. -/
example : Operands [] [(.float, (⟨[3, 4, 5], none⟩ : Arr Int)), (.float, ⟨[], none⟩)] [0, 0] [3, 0] ∧
    concatenate [0, 0, 0, 0, 0] .float (⟨[1, 2], none⟩ : Arr Int) [(.float, ⟨[3, 4, 5], none⟩), (.float, ⟨[], none⟩)] = .ok ⟨[1, 2, 3, 4, 5], some [0, 5, 1]⟩ :=
  ⟨⟨.plain rfl (by decide), .plain rfl (by decide), trivial⟩, by decide⟩

/-- C104: operands of different types are rejected. -/
theorem concat_types_throw {α : Type} (k : Kind) (a0 : Arr α) (o0 n c0 : Nat) (lead : List Int)
    (h0 : Operand lead (k, a0) o0 c0) (hlead : ∀ d ∈ lead, 0 < d) (hn : lead.prod = n) (hc : 0 < c0)
    (xs : List (Kind × Arr α)) (os cs : List Nat) (hx : Operands lead xs os cs) (hkx : ∃ x ∈ xs, x.1 ≠ k)
    (C : Nat) (hC : c0 + cs.sum = C) (junk : List α) (hj : junk.length = n * C) (hb : n * C < 2147483648) :
    concatenate junk k a0 xs = .thrown (.error "var::broadcast: types must match (for now)") := by
  obtain ⟨e1, hnew⟩ := concatAlloc_eq h0 hlead hn hc hx hC hj hb
  unfold concatenate
  rw [e1, Outcome.bind_ok, if_pos (by simpa using hkx)]

example : concatenate [0, 0, 0, 0, 0, 0] .float left22 [(.double, right21)] = .thrown (.error "var::broadcast: types must match (for now)") := by decide

theorem sameLead_differ {a0 a : Arr α} {o0 o : Int} {lead lead' : List Int} {c0 c : Int} (h0 : HasShape a0 o0 (lead ++ [c0])) (h : HasShape a o (lead' ++ [c]))
    (hlen : lead'.length = lead.length) : ∀ (n d : Nat), d + n = lead.length → lead'.drop d ≠ lead.drop d →
      sameLead a0 a d n = .thrown (.error "Concatenate: dimensions differ")
  | 0, d, hd, hne => absurd (by rw [List.drop_eq_nil_of_le (by omega), List.drop_eq_nil_of_le (by omega)]) hne
  | n + 1, d, hd, hne => by
    have hl : d < lead.length := by omega
    have e : ∀ (l : List Int) (hl : d < l.length) (z : Int), l ++ [z] = l.take d ++ l[d] :: (l.drop (d + 1) ++ [z]) := fun l hl z => by
      rw [← List.cons_append, ← List.drop_eq_getElem_cons hl, ← List.append_assoc, List.take_append_drop]
    have h1 := h0.shape (e lead hl c0)
    have h2 := h.shape (e lead' (by omega) c)
    rw [List.length_take, Nat.min_eq_left (by omega)] at h1 h2
    rw [sameLead, h2, Outcome.bind_ok, h1, Outcome.bind_ok]
    by_cases hdd : lead'[d]'(by omega) = lead[d]
    · rw [if_neg (by simpa using hdd)]
      refine sameLead_differ h0 h hlen n (d + 1) (by omega) fun hcon => hne ?_
      rw [List.drop_eq_getElem_cons hl, List.drop_eq_getElem_cons (show d < lead'.length by omega), hcon, hdd]
    · rw [if_pos hdd]

theorem widths_differ {a0 : Arr α} {o0 c0 : Int} {lead lead' : List Int} (h0 : HasShape a0 o0 (lead ++ [c0])) {x : Kind × Arr α} {o c : Nat} (h : Operand lead' x o c)
    (hlen : lead'.length = lead.length) (hne : lead' ≠ lead) (rest : List (Arr α)) : ∀ (xs : List (Kind × Arr α)) (os cs : List Nat) (sum : Nat),
    Operands lead xs os cs → sum + cs.sum < 2147483648 → widths a0 (xs.map (·.2) ++ x.2 :: rest) (sum : Int) = .thrown (.error "Concatenate: dimensions differ")
  | [], [], [], sum, _, _ => by
    obtain ⟨hs, _, _⟩ := (show Shaped x.2 o (lead' ++ [(c : Int)]) from h).shape
    simp only [List.map_nil, List.nil_append]
    rw [widths, h0.dim, show (lead ++ [c0]).length - 1 = lead.length by simp, sameLead_differ h0 hs hlen lead.length 0 (by omega) (by simpa using hne)]
    rfl
  | y :: xs, p :: os, b :: cs, sum, hx, hb => by
    obtain ⟨hs, hp, hl⟩ := (show Shaped y.2 p (lead ++ [(b : Int)]) from hx.1).shape
    simp only [List.sum_cons] at hb
    simp only [List.map_cons, List.cons_append]
    rw [widths, h0.dim, show (lead ++ [c0]).length - 1 = lead.length by simp, sameLead_eq h0 hs lead.length 0 (by omega), Outcome.bind_ok,
      shape_last hs, Outcome.bind_ok, show (sum : Int) + (b : Int) = ((sum + b : Nat) : Int) by push_cast; rfl, cint_nat (by omega), Outcome.bind_ok,
      widths_differ h0 h hlen hne rest xs os cs (sum + b) hx.2 (by omega)]

/-- C104: an operand with as many dimensions as the first, but other leading ones, is rejected, wherever it is. -/
theorem concat_lead_throws {α : Type} (k : Kind) (a0 : Arr α) (o0 c0 : Nat) (lead lead' : List Int) (h0 : Operand lead (k, a0) o0 c0)
    (xs : List (Kind × Arr α)) (os cs : List Nat) (hx : Operands lead xs os cs) (hb : c0 + cs.sum < 2147483648)
    (x : Kind × Arr α) (o c : Nat) (h : Operand lead' x o c) (hlen : lead'.length = lead.length) (hne : lead' ≠ lead) (rest : List (Kind × Arr α)) (junk : List α) :
    concatenate junk k a0 (xs ++ x :: rest) = .thrown (.error "Concatenate: dimensions differ") := by
  obtain ⟨hs, hp, hl⟩ := (show Shaped a0 o0 (lead ++ [(c0 : Int)]) from h0).shape
  unfold concatenate concatAlloc
  rw [shape_last hs, Outcome.bind_ok, List.map_append, List.map_cons, widths_differ hs h hlen hne _ xs os cs c0 hx hb]
  rfl

example : Operand [2] (.float, left22) 0 2 ∧ Operand [1] (.float, (⟨[5, 6], some [0, 1, 2, 2, 1]⟩ : Arr Int)) 0 2 ∧
    concatenate [] .float left22 [(.float, ⟨[5, 6], some [0, 1, 2, 2, 1]⟩)] = .thrown (.error "Concatenate: dimensions differ") :=
  ⟨.view 0 [2, 2] (by decide) (by decide), .view 0 [1, 2] (by decide) (by decide), by decide⟩

/-- C104 fails for integers and characters: concatenating arrays of them throws. -/
theorem concat_int_throws {α : Type} (k : Kind) (hk : k = .char ∨ k = .int ∨ k = .long) (a0 : Arr α) (c0 : Nat)
    (h0 : Operand [] (k, a0) 0 c0) (hc : 0 < c0)
    (xs : List (Kind × Arr α)) (os cs : List Nat) (hx : Operands [] xs os cs) (hkx : ∀ x ∈ xs, x.1 = k)
    (C : Nat) (hC : c0 + cs.sum = C) (junk : List α) (hj : junk.length = C) (hb : C < 2147483648) :
    concatenate junk k a0 xs = .thrown (.error "Concatenate::vector: Unknown type") := by
  have hall : Operands [] ((k, a0) :: xs) (0 :: os) (c0 :: cs) := ⟨h0, hx⟩
  obtain ⟨e1, hnew⟩ := concatAlloc_eq (n := 1) (junk := junk) h0 (by simp) rfl hc hx hC (by omega) (by omega)
  obtain ⟨so, _, _, hp, hl⟩ := hnew junk (by omega)
  obtain ⟨rs, hrs⟩ := rows_exist (n := 1) rfl (i := 0) (by omega) _ _ _ hall
  obtain ⟨vs, ev, hv, hlen⟩ := rowViews_eq (n := 1) rfl (i := 0) (by omega) _ _ _ _ hall hrs
  obtain ⟨ov, t1, t2, t3⟩ := subview_row (n := 1) so rfl hl hp (i := 0) (by omega)
  rw [Nat.mul_zero] at t1
  simp only [List.map_cons] at ev
  unfold concatenate
  rw [e1, Outcome.bind_ok, if_neg (by
    simp only [List.any_eq_true, not_exists, not_and, decide_eq_true_eq, not_not]
    exact hkx)]
  have hd1 : dim (⟨junk, some (0 :: flat ([] ++ [(C : Int)]))⟩ : Arr α) = 1 := so.dim
  rw [hd1, show rowStep (1 - 1) (⟨junk, some (0 :: flat ([] ++ [(C : Int)]))⟩ : Arr α) = .ok 0 from rfl, Outcome.bind_ok, so.size, Outcome.bind_ok,
    show concatOps (1 - 1) 0 (([] : List Int) ++ [(C : Int)]).prod = .ok 1 from rfl, Outcome.bind_ok, concatRows, show 1 - 1 = ([] : List Int).length from rfl, ev, Outcome.bind_ok,
    show cint (0 * ((0 : Nat) : Int)) = .ok ((0 : Nat) : Int) by decide, Outcome.bind_ok]
  unfold concatVector
  rw [hd1]
  simp only [List.length_nil, Nat.cast_one, Nat.cast_zero, sub_zero] at t1 ⊢
  rw [t1, Outcome.bind_ok, t3.offset, Outcome.bind_ok]
  rcases hk with rfl | rfl | rfl <;> rfl

example : concatenate [0, 0, 0] .int (⟨[1], none⟩ : Arr Int) [(.int, ⟨[2, 3], none⟩)] = .thrown (.error "Concatenate::vector: Unknown type") := by decide

/-- C104 fails if the first operand has no elements: its first element is read, to find the type. -/
theorem concat_empty_first {α : Type} (k : Kind) (xs : List (Kind × Arr α)) (os cs : List Nat) (hx : Operands [] xs os cs) (hb : cs.sum < 2147483648) (junk : List α) :
    concatenate junk k ⟨[], none⟩ xs = .ub .outOfBounds := by
  have h0 : HasShape (⟨[], none⟩ : Arr α) 0 ([] ++ [(0 : Int)]) := .plain rfl (by simp)
  unfold concatenate concatAlloc
  rw [shape_last h0, Outcome.bind_ok, show (0 : Int) = ((0 : Nat) : Int) from rfl, widths_eq h0 xs os cs 0 hx (by omega)]
  rfl

example : Operands [] [(.float, (⟨[1, 2], none⟩ : Arr Int))] [0] [2] := ⟨.plain rfl (by decide), trivial⟩

/-- C104 fails for an operand with more dimensions than the first: it is accepted, and only the first of its rows at each place is copied (5, 6 and 9, 10 here). -/
theorem concat_more_dims_loses : ∃ a b : Arr Int, Shaped a 0 [2, 2] ∧ Shaped b 0 [2, 2, 2] ∧ b.data = [5, 6, 7, 8, 9, 10, 11, 12] ∧
    concatenate [0, 0, 0, 0, 0, 0, 0, 0] .float a [(.float, b)] = .ok ⟨[1, 2, 5, 6, 3, 4, 9, 10], some [0, 2, 4, 4, 1]⟩ :=
  ⟨left22, ⟨[5, 6, 7, 8, 9, 10, 11, 12], some [0, 2, 4, 2, 2, 2, 1]⟩, .view 0 [2, 2] (by decide) (by decide), .view 0 [2, 2, 2] (by decide) (by decide), rfl, by decide⟩

/-- C104 fails for an operand with fewer dimensions than the first: it is accepted, and takes as many columns as it has elements, of which all but one keep
    whatever was in the memory. -/
theorem concat_fewer_dims_junk : ∃ a b : Arr Int, Shaped a 0 [2, 2] ∧ Shaped b 0 [2] ∧
    concatenate [70, 71, 72, 73, 74, 75, 76, 77] .float a [(.float, b)] = .ok ⟨[1, 2, 5, 73, 3, 4, 6, 77], some [0, 2, 4, 4, 1]⟩ ∧
    concatenate [80, 81, 82, 83, 84, 85, 86, 87] .float a [(.float, b)] = .ok ⟨[1, 2, 5, 83, 3, 4, 6, 87], some [0, 2, 4, 4, 1]⟩ :=
  ⟨left22, ⟨[5, 6], none⟩, .view 0 [2, 2] (by decide) (by decide), .plain rfl (by decide), by decide, by decide⟩

#print axioms sort_rows_partial
#print axioms sort_new_throws
#print axioms sort_complex_throws
#print axioms sort_empty_undefined
#print axioms asum_vector_partial
#print axioms asum_rows_partial
#print axioms asum_kind_throws
#print axioms asum_empty_undefined
#print axioms iamax_vector_partial
#print axioms iamax_rows_partial
#print axioms iamax_complex_magnitude
#print axioms iamax_int_throws
#print axioms iamax_number_aborts
#print axioms iamax_empty_undefined
#print axioms concat_rows_partial
#print axioms concat_types_throw
#print axioms concat_lead_throws
#print axioms concat_int_throws
#print axioms concat_empty_first
#print axioms concat_more_dims_loses
#print axioms concat_fewer_dims_junk

end Libube.Reduce

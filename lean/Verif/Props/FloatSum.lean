import Verif.Props.Rows
import Verif.Props.FloatOrder
import Verif.Spec.FloatSum
import Verif.Spec.Reduce
import Mathlib.Algebra.BigOperators.Group.List.Basic
import Mathlib.Algebra.Order.BigOperators.Group.List
import Mathlib.Algebra.BigOperators.Ring.List
import Mathlib.Tactic.Linarith

/-! # Sums of arrays of floating point numbers (C183) -/

namespace Libube.Rows

open View Transpose RowsSpec ViewSpec ReduceSpec

theorem sumLoop_fold [Zero α] [Add α] {src : List α} {p : Nat} : ∀ (row : List α) (i : Nat) (acc : α), (∀ t, t < row.length → src[p + (i + t)]? = row[t]?) →
    sumLoop src (p : Int) i row.length acc = .ok (row.foldl (· + ·) acc)
  | [], _, _, _ => rfl
  | x :: row, i, acc, h => by
    have h0 : src[p + i]? = some x := h 0 (by simp)
    rw [List.length_cons, sumLoop, load_nat h0, Outcome.bind_ok, sumLoop_fold row (i + 1) _ (fun t ht => by
      have := h (t + 1) (by simpa using ht)
      rw [show i + 1 + t = i + (t + 1) by omega, this]
      rfl)]
    rfl

theorem sum_vector_fold [Zero α] [Add α] (k : Kind) (hk : k = .float ∨ k = .double ∨ k = .cfloat) (a : Arr α)
    (o : Nat) (row : List α) (ha : Shaped a o [(row.length : Int)]) (hr : row ≠ []) (hx : RowAt a.data o row) (junk : List α) :
    sum k junk a = .ok ⟨[row.foldl (· + ·) 0], none⟩ := by
  obtain ⟨hs, hp, hl⟩ := ha.shape
  have hc := List.length_pos_iff.mpr hr
  have hs' : HasShape a (o : Int) ([] ++ [(row.length : Int)]) := hs
  obtain ⟨x0, h0⟩ : ∃ x0, a.data[o]? = some x0 := by
    refine ⟨row[0], ?_⟩
    have := hx 0 hc
    rwa [Nat.add_zero, List.getElem?_eq_getElem hc] at this
  obtain ⟨d, e, hd, g⟩ := broadcast_rows (n := 1) (w := 1) (b := 0) (L := 1) (v := fun _ _ => row.foldl (· + ·) 0)
    (f := sumVector k a ⟨[x0], none⟩) hs' rfl hc (out := ⟨[x0], none⟩) rfl rfl (by
      intro i hi dst hdst
      obtain rfl : i = 0 := by omega
      have e : sumLoop a.data ((o : Int) + ((row.length * 0 : Nat) : Int)) 0 row.length 0 = .ok (row.foldl (· + ·) 0) := by
        have := sumLoop_fold (p := o) (src := a.data) row 0 0 (fun t ht => by simpa using hx t ht)
        simpa using this
      match dst, hdst with
      | [y], _ =>
        refine ⟨[row.foldl (· + ·) 0], ?_, rfl, fun j hj => ?_, fun q hq => ?_⟩
        · unfold sumVector
          rw [shape_last hs', hs.offset]
          simp only [Outcome.bind_ok, Int.toNat_natCast]
          rcases hk with rfl | rfl | rfl <;> simp only [] <;> rw [e] <;> rfl
        · obtain rfl : j = 0 := by omega
          rfl
        · have : 1 ≤ q := by omega
          rw [List.getElem?_eq_none (by simpa using this), List.getElem?_eq_none (by simpa using this)])
  have hd' : d = [row.foldl (· + ·) 0] := by
    have := g 0 (by omega) 0 (by omega)
    match d, hd with
    | [z], _ => simpa using this
  unfold sum scalarAlloc
  rw [hs.offset]
  simp only [Outcome.bind_ok]
  have hl0 : load a.data (o : Int) = .ok x0 := by
    have := load_nat (b := o) (k := 0) h0
    simpa using this
  rw [hl0]
  simp only [Outcome.bind_ok]
  rw [if_neg (by rw [hs.dim]; simp)]
  simp only [Outcome.bind_ok]
  rw [sumScalar_eq (by rcases hk with rfl | rfl | rfl <;> decide), e, hd']
  rfl

theorem sum_rows_fold [Zero α] [Add α] (k : Kind) (hk : k = .float ∨ k = .double ∨ k = .cfloat) (a : Arr α)
    (o n c : Nat) (lead : List Int) (ha : Shaped a o (lead ++ [(c : Int)])) (hlead : ∀ d ∈ lead, 0 < d) (hne : lead ≠ [])
    (hn : lead.prod = n) (hc : 0 < c) (junk : List α) (hj : junk.length = n)
    (row : Nat → List α) (hx : ∀ i, i < n → (row i).length = c ∧ RowAt a.data (o + c * i) (row i)) :
    ∃ out d, sum k junk a = .ok out ∧ NewArray out (lead ++ [1]) d ∧
      ∀ i, i < n → d[i]? = some ((row i).foldl (· + ·) 0) := by
  obtain ⟨hs, hp, hl⟩ := ha.shape
  have hprod : (lead ++ [(1 : Int)]).prod = (n : Int) := by
    rw [List.prod_append, hn, List.prod_singleton]; simp
  have hpos : ∀ d ∈ lead ++ [(1 : Int)], 0 < d := by
    intro d hd
    rw [List.mem_append, List.mem_singleton] at hd
    rcases hd with h | rfl
    · exact hlead d h
    · omega
  have hn0 : 0 < n := by have := View.prod_pos hlead; omega
  have hnc : n ≤ n * c := Nat.le_mul_of_pos_right _ hc
  have hp' : n * c + o ≤ a.data.length := by
    rw [List.prod_append, hn, List.prod_singleton] at hp
    exact_mod_cast hp
  obtain ⟨e1, hf, hnew⟩ := newView_eq (junk := junk) (by simp) hpos (by rw [hprod, hj]) (by rw [hprod]; exact lt_max (by omega))
  have so : HasShape (⟨junk, some (0 :: flat (lead ++ [(1 : Int)]))⟩ : Arr α) ((0 : Nat) : Int) (lead ++ [(1 : Int)]) :=
    .view _ _ rfl hf (by simp)
  have hbs : blockStep (⟨junk, some (0 :: flat (lead ++ [(1 : Int)]))⟩ : Arr α) 1 = .ok ((1 : Nat) : Int) := by
    have := blockStep_eq so
    simpa using this
  obtain ⟨d, e2, hd, g⟩ := broadcast_rows (b := 0) (v := fun i _ => (row i).foldl (· + ·) 0)
    (f := sumVector k a ⟨junk, some (0 :: flat (lead ++ [(1 : Int)]))⟩) hs hn hc hbs hj (by
      intro i hi dst hdst
      have e : sumLoop a.data (((o + c * i : Nat)) : Int) 0 c 0 = .ok ((row i).foldl (· + ·) 0) := by
        have := sumLoop_fold (p := o + c * i) (src := a.data) (row i) 0 0 (fun t ht => by simpa using (hx i hi).2 t ht)
        rwa [(hx i hi).1] at this
      have w := ((Wrote.zero dst i (fun _ => (0 : α))).extend (by omega) ((row i).foldl (· + ·) 0)).congr
        (w := fun _ => (row i).foldl (· + ·) 0) (by intro j hj; rw [if_pos (by omega)])
      refine ⟨dst.set i ((row i).foldl (· + ·) 0), ?_, by simpa using w⟩
      unfold sumVector
      rw [shape_last hs, hs.offset, so.offset]
      simp only [Outcome.bind_ok, Int.toNat_natCast]
      have hst := store_nat (data := dst) (b := 0) (k := i) ((row i).foldl (· + ·) 0) (by omega)
      rw [Nat.zero_add] at hst
      rw [show (o : Int) + ((c * i : Nat) : Int) = ((o + c * i : Nat) : Int) by push_cast; rfl, Nat.one_mul]
      rcases hk with rfl | rfl | rfl <;> simp only [] <;> rw [e] <;> exact hst)
  refine ⟨⟨d, some (0 :: flat (lead ++ [(1 : Int)]))⟩, d, ?_, hnew d (by rw [hd, hj]), fun i hi => ?_⟩
  · unfold sum scalarAlloc
    rw [hs.offset]
    simp only [Outcome.bind_ok]
    obtain ⟨x0, _, hl0⟩ := load_inside (data := a.data) (i := (o : Int)) (by omega) (by omega)
    rw [hl0]
    simp only [Outcome.bind_ok]
    have hl1 := List.length_pos_iff.mpr hne
    rw [if_pos (by rw [hs.dim]; simp; exact hl1)]
    have h1 : shapeLoop a 0 (lead ++ [(c : Int)]).length = .ok (lead ++ [(c : Int)]) := hs.shapeLoop [] _ rfl
    rw [hs.dim, h1]
    simp only [Outcome.bind_ok]
    rw [show (lead ++ [(c : Int)]).length - 1 = lead.length by simp,
      show ipSet (lead ++ [(c : Int)]) lead.length 1 = .ok (lead ++ [(1 : Int)]) by
        unfold ipSet; rw [if_pos (by simp), set_length_append]]
    simp only [Outcome.bind_ok]
    rw [e1]
    simp only [Outcome.bind_ok]
    rw [sumScalar_eq (by rcases hk with rfl | rfl | rfl <;> decide), e2]
    rfl
  · have := g i hi 0 (by omega)
    simpa using this

end Libube.Rows

namespace Libube.FloatRange

open FloatRangeSpec View RowsSpec ReduceSpec

theorem addF_adds {f : Fmt} {s x : Int} (hs : |s| ≤ inf f) (hx : Finite f x) : ∃ t, addF f (some s) (some x) = some t ∧ Adds f s x t ∧ |t| ≤ inf f := by
  have hx' := finite_lt hx
  have hi : inf f = ((2 ^ f.top : Nat) : Int) := inf_eq f
  rcases eq_or_lt_of_le hs with h | h
  · have h' : s.natAbs = 2 ^ f.top := by rw [hi, Int.abs_eq_natAbs] at h; exact_mod_cast h
    refine ⟨s, ?_, ⟨fun g => absurd h (ne_of_lt g), fun _ => rfl⟩, hs⟩
    unfold addF
    simp only []
    rw [if_pos h', if_neg (by rintro rfl; rw [Int.natAbs_neg] at hx'; omega)]
  · have h' : s.natAbs ≠ 2 ^ f.top := by
      rw [hi, Int.abs_eq_natAbs] at h
      have : s.natAbs < 2 ^ f.top := by exact_mod_cast h
      omega
    have hr := rounded_rnd f 0 (s + x)
    rw [pow_zero] at hr
    refine ⟨rnd f 0 (s + x), ?_, ⟨fun _ => hr, fun g => absurd g (ne_of_lt h)⟩, rounded_bound hr⟩
    unfold addF
    simp only []
    rw [if_neg h', if_neg (by omega)]

theorem fold_running {f : Fmt} : ∀ (xs : List Int) (s : Int), |s| ≤ inf f → (∀ x ∈ xs, Finite f x) →
    ∃ r, (elements f xs).foldl (· + ·) (⟨some s⟩ : Elem f) = ⟨some r⟩ ∧ Running f s xs r ∧ |r| ≤ inf f
  | [], s, hs, _ => ⟨s, rfl, .done s, hs⟩
  | x :: xs, s, hs, h => by
    obtain ⟨t, e, ht, hb⟩ := addF_adds hs (h x (by simp))
    obtain ⟨r, e', hr, hb'⟩ := fold_running xs t hb fun y hy => h y (by simp [hy])
    refine ⟨r, ?_, .step ht hr, hb'⟩
    rw [← e']
    show (elements f xs).foldl (· + ·) (⟨addF f (some s) (some x)⟩ : Elem f) = _
    rw [e]

theorem kind_cases (f : Fmt) : f.kind = .float ∨ f.kind = .double ∨ f.kind = .cfloat := by cases f <;> simp [Fmt.kind]

theorem zero_elem (f : Fmt) : (0 : Elem f) = ⟨some 0⟩ := rfl

/-- C183 for one dimension: the elements are added one after the other, in their order, each sum rounded. -/
theorem float_sum_vector (f : Fmt) (a : Arr (Elem f)) (o : Nat) (xs : List Int) (ha : Shaped a o [(xs.length : Int)]) (h0 : xs ≠ []) (hf : ∀ x ∈ xs, Finite f x)
    (hx : RowAt a.data o (elements f xs)) (junk : List (Elem f)) :
    ∃ r, sumElems f junk a = .ok ⟨[⟨some r⟩], none⟩ ∧ Running f 0 xs r := by
  obtain ⟨r, e, hr, -⟩ := fold_running (f := f) xs 0 (by rw [abs_zero]; exact (inf_pos f).le) hf
  refine ⟨r, ?_, hr⟩
  have := Rows.sum_vector_fold f.kind (kind_cases f) a o (elements f xs) (by simpa [elements] using ha) (by simpa [elements] using h0) hx junk
  rw [zero_elem, e] at this
  exact this

/-- C183 for several dimensions: so for every row. -/
theorem float_sum_rows (f : Fmt) (a : Arr (Elem f)) (o n c : Nat) (lead : List Int) (ha : Shaped a o (lead ++ [(c : Int)])) (hlead : ∀ d ∈ lead, 0 < d)
    (hne : lead ≠ []) (hn : lead.prod = n) (hc : 0 < c) (junk : List (Elem f)) (hj : junk.length = n) (xs : Nat → List Int)
    (hx : ∀ i, i < n → (xs i).length = c ∧ RowAt a.data (o + c * i) (elements f (xs i)) ∧ ∀ x ∈ xs i, Finite f x) :
    ∃ out d, sumElems f junk a = .ok out ∧ NewArray out (lead ++ [1]) d ∧ ∀ i, i < n → ∃ r, d[i]? = some ⟨some r⟩ ∧ Running f 0 (xs i) r := by
  obtain ⟨out, d, e, h1, h2⟩ := Rows.sum_rows_fold f.kind (kind_cases f) a o n c lead ha hlead hne hn hc junk hj (fun i => elements f (xs i))
    (fun i hi => ⟨by simpa [elements] using (hx i hi).1, (hx i hi).2.1⟩)
  refine ⟨out, d, e, h1, fun i hi => ?_⟩
  obtain ⟨r, e', hr, -⟩ := fold_running (f := f) (xs i) 0 (by rw [abs_zero]; exact (inf_pos f).le) (hx i hi).2.2
  refine ⟨r, ?_, hr⟩
  rw [h2 i hi, zero_elem, e']

theorem adds_rnd {f : Fmt} {s x t : Int} (h : Adds f s x t) (hs : |s| < inf f) : t = rnd f 0 (s + x) := by
  have hr := rounded_rnd f 0 (s + x)
  rw [pow_zero] at hr
  exact rounded_unique (by decide) (h.1 hs) hr

theorem adds_bound {f : Fmt} {s x t : Int} (h : Adds f s x t) (hs : |s| ≤ inf f) : |t| ≤ inf f := by
  rcases eq_or_lt_of_le hs with g | g
  · rw [h.2 g]; exact hs
  · exact rounded_bound (h.1 g)

theorem running_stuck {f : Fmt} {s r : Int} {xs : List Int} (h : Running f s xs r) (hs : |s| = inf f) : r = s := by
  induction h with
  | done => rfl
  | step a _ ih =>
    have := a.2 hs
    subst this
    exact ih hs

theorem digits_eq (f : Fmt) : digits f = f.frac + 1 := by cases f <;> rfl

/-- Rounding changes a number by at most one part in 2^24 or 2^53. -/
theorem rnd_relative {f : Fmt} {x : Int} (h : |rnd f 0 x| < inf f) : 2 ^ digits f * |rnd f 0 x - x| ≤ |x| := by
  have ht : (rnd f 0 x).natAbs < 2 ^ f.top := by
    rw [inf_eq, Int.abs_eq_natAbs] at h
    exact_mod_cast h
  rw [digits_eq, Int.abs_eq_natAbs, Int.abs_eq_natAbs]
  rcases Nat.lt_or_ge x.natAbs (2 ^ (f.frac + 1)) with g | g
  · rw [rnd_grid (k := 0) ⟨x, by simp, g.le⟩ (g.le.trans (Nat.pow_le_pow_right (by omega) (by cases f <;> decide)))]
    simp
  · have hpos := Nat.two_pow_pos (f.frac + 1)
    have hn0 : x.natAbs ≠ 0 := by omega
    obtain ⟨l1, l2⟩ := log2_bounds hn0
    have hl : f.frac + 1 ≤ x.natAbs.log2 := (Nat.le_log2 hn0).2 g
    obtain ⟨k, hk⟩ := Nat.exists_eq_add_of_le (show f.frac ≤ x.natAbs.log2 by omega)
    rw [hk] at l1 l2
    have e := rnd_error (k := k) (f := f) (x := x) (by rw [← Nat.pow_add]; convert l2 using 2; omega) ht
    have : 2 ^ (f.frac + 1) * (rnd f 0 x - x).natAbs ≤ x.natAbs := by
      calc 2 ^ (f.frac + 1) * (rnd f 0 x - x).natAbs = 2 ^ f.frac * (2 * (rnd f 0 x - x).natAbs) := by ring
        _ ≤ 2 ^ f.frac * 2 ^ k := Nat.mul_le_mul_left _ e
        _ = 2 ^ (f.frac + k) := by rw [Nat.pow_add]
        _ ≤ _ := l1
    exact_mod_cast this

theorem error_step {T m q p E E' A A' s' : Int} (hT : 0 < T) (hm : 0 ≤ m) (hq : m ≤ q) (hE : m * E ≤ (q - m) * A) (hA : A ≤ A') (hs : s' ≤ A')
    (hp : p ≤ E + s') (h : T * E' ≤ p + T * E) : T * m * E' ≤ ((T + 1) * q - T * m) * A' := by
  have h1 : m * (T * E') ≤ m * (p + T * E) := Int.mul_le_mul_of_nonneg_left h hm
  have h2 : m * p ≤ m * (E + s') := Int.mul_le_mul_of_nonneg_left hp hm
  have h3 : m * s' ≤ m * A' := Int.mul_le_mul_of_nonneg_left hs hm
  have h4 : (T + 1) * (m * E) ≤ (T + 1) * ((q - m) * A) := Int.mul_le_mul_of_nonneg_left hE (by omega)
  have h5 : (q - m) * A ≤ (q - m) * A' := Int.mul_le_mul_of_nonneg_left hA (by omega)
  have h6 : (T + 1) * ((q - m) * A) ≤ (T + 1) * ((q - m) * A') := Int.mul_le_mul_of_nonneg_left h5 (by omega)
  linarith

theorem running_error' {f : Fmt} {xs : List Int} {s r : Int} (h : Running f s xs r) : ∀ (m : Nat) (e A : Int), |r| < inf f → |e| ≤ A → |s| ≤ inf f →
    (2 ^ digits f) ^ m * |s - e| ≤ ((2 ^ digits f + 1) ^ m - (2 ^ digits f) ^ m) * A →
    (2 ^ digits f) ^ (m + xs.length) * |r - (e + xs.sum)| ≤ ((2 ^ digits f + 1) ^ (m + xs.length) - (2 ^ digits f) ^ (m + xs.length)) * (A + (xs.map fun x => |x|).sum) := by
  induction h with
  | done s => intro m e A _ _ _ h; simpa using h
  | @step s x t xs r a hr ih =>
    intro m e A hb he hs h
    have hs' : |s| < inf f := by
      rcases eq_or_lt_of_le hs with g | g
      · have e1 := a.2 g
        have e2 := running_stuck hr (by rw [e1]; exact g)
        rw [e2, e1] at hb
        exact absurd g (ne_of_lt hb)
      · exact g
    have ht := adds_bound a hs
    have ht' : |t| < inf f := by
      rcases eq_or_lt_of_le ht with g | g
      · rw [running_stuck hr g] at hb
        exact absurd g (ne_of_lt hb)
      · exact g
    have hrel : 2 ^ digits f * |t - (s + x)| ≤ |s + x| := by
      have e1 := adds_rnd a hs'
      rw [e1] at ht' ⊢
      exact rnd_relative ht'
    have hT : (0 : Int) < 2 ^ digits f := by positivity
    have key := error_step (T := 2 ^ digits f) (m := (2 ^ digits f) ^ m) (q := (2 ^ digits f + 1) ^ m) (p := |s + x|) (E := |s - e|) (E' := |t - (e + x)|)
      (A := A) (A' := A + |x|) (s' := |e + x|) hT (by positivity) (pow_le_pow_left₀ hT.le (by omega) m) h (by have := abs_nonneg x; omega)
      ((abs_add_le e x).trans (by omega))
      (by
        have := abs_add_le (s - e) (e + x)
        rwa [show s - e + (e + x) = s + x by ring] at this)
      (by
        have h1 := abs_add_le (t - (s + x)) (s - e)
        rw [show t - (s + x) + (s - e) = t - (e + x) by ring] at h1
        have h2 := Int.mul_le_mul_of_nonneg_left h1 hT.le
        rw [Int.mul_add] at h2
        omega)
    have := ih (m + 1) (e + x) (A + |x|) hb ((abs_add_le e x).trans (by omega)) ht (by
      rw [pow_succ, pow_succ, mul_comm ((2 ^ digits f) ^ m : Int), mul_comm ((2 ^ digits f + 1) ^ m : Int)]
      exact key)
    rw [List.length_cons, List.sum_cons, List.map_cons, List.sum_cons, show m + (xs.length + 1) = m + 1 + xs.length by omega, ← add_assoc, ← add_assoc]
    exact this

/-- C183: if the sum is finite, it differs from the exact one by no more than ((1 + u)^(n-1) - 1) times the sum of the magnitudes, where u is 2^-24 for
    `float` and 2^-53 for `double` and n is the number of elements (here multiplied by the denominator). -/
theorem float_sum_error (f : Fmt) (x : Int) (xs : List Int) (hx : Finite f x) (r : Int) (h : Running f 0 (x :: xs) r) (hr : |r| < inf f) :
    (2 ^ digits f) ^ xs.length * |r - (x :: xs).sum| ≤ ((2 ^ digits f + 1) ^ xs.length - (2 ^ digits f) ^ xs.length) * ((x :: xs).map fun y => |y|).sum := by
  cases h with
  | @step _ _ t _ _ a h =>
    have ht : t = x := by
      have := a.1 (by rw [abs_zero]; exact inf_pos f)
      rw [Int.zero_add] at this
      exact rounded_unique (by decide) this (rounded_self hx)
    subst ht
    have := running_error' h 0 t |t| hr (le_refl _) (finite_abs hx).le (by simp)
    simpa using this

theorem adds_mono {f : Fmt} {s s' x x' t t' : Int} (h : Adds f s x t) (h' : Adds f s' x' t') (hs : |s| ≤ inf f) (hs' : |s'| ≤ inf f) (h1 : s ≤ s') (h2 : x ≤ x') : t ≤ t' := by
  have b := abs_le.1 (adds_bound h hs)
  have b' := abs_le.1 (adds_bound h' hs')
  have hi := inf_pos f
  have c := abs_le.1 hs
  have c' := abs_le.1 hs'
  rcases eq_or_lt_of_le hs with g | g
  · have e := h.2 g
    rcases le_or_gt 0 s with s0 | s0
    · rw [abs_of_nonneg s0] at g
      have : |s'| = inf f := by rw [abs_of_nonneg (by omega)]; omega
      have := h'.2 this
      omega
    · rw [abs_of_neg s0] at g
      omega
  · rcases eq_or_lt_of_le hs' with g' | g'
    · have e := h'.2 g'
      rcases le_or_gt 0 s' with s0 | s0
      · rw [abs_of_nonneg s0] at g'
        omega
      · rw [abs_of_neg s0] at g'
        rw [abs_of_neg (by omega)] at g
        omega
    · exact rounded_mono (by decide) (h.1 g) (h'.1 g') (by omega)

theorem running_mono {f : Fmt} {xs ys : List Int} (hl : List.Forall₂ (· ≤ ·) xs ys) : ∀ {s s' r r' : Int}, Running f s xs r → Running f s' ys r' →
    |s| ≤ inf f → |s'| ≤ inf f → s ≤ s' → r ≤ r' := by
  induction hl with
  | nil => intro s s' r r' h h' _ _ hs; cases h; cases h'; exact hs
  | cons hxy _ ih =>
    intro s s' r r' h h' b b' hs
    cases h with
    | step a h =>
      cases h' with
      | step a' h' => exact ih h h' (adds_bound a b) (adds_bound a' b') (adds_mono a a' b b' hs hxy)

/-- C183: where no element is smaller, the sum is not either, whether or not it is finite. -/
theorem float_sum_keeps_order (f : Fmt) (xs ys : List Int) (r r' : Int) (h : Running f 0 xs r) (h' : Running f 0 ys r') (hl : List.Forall₂ (· ≤ ·) xs ys) :
    lt (.flt f (some r')) (.flt f (some r)) = false := by
  have hi : |(0 : Int)| ≤ inf f := by rw [abs_zero]; exact (inf_pos f).le
  rw [lt_finite]
  simpa using running_mono hl h h' hi hi (le_refl _)

theorem running_exact {f : Fmt} {k : Nat} {xs : List Int} {s r : Int} (h : Running f s xs r) : (∀ x ∈ xs, (2 ^ k : Int) ∣ x) → (2 ^ k : Int) ∣ s →
    |s| + (xs.map fun x => |x|).sum ≤ 2 ^ digits f * 2 ^ k → |s| + (xs.map fun x => |x|).sum < inf f → r = s + xs.sum := by
  induction h with
  | done s => intro _ _ _ _; simp
  | @step s x t xs r a _ ih =>
    intro h1 h2 h3 h4
    rw [List.map_cons, List.sum_cons] at h3 h4
    have hnn : 0 ≤ (xs.map fun x => |x|).sum := List.sum_nonneg (by simp only [List.mem_map]; rintro _ ⟨y, -, rfl⟩; exact abs_nonneg y)
    have hx := abs_nonneg x
    have hsx := abs_add_le s x
    have hd : (2 ^ k : Int) ∣ s + x := Int.dvd_add h2 (h1 x (by simp))
    have ht : t = s + x := by
      rw [adds_rnd a (by omega)]
      obtain ⟨c, hc⟩ := hd
      refine rnd_grid (k := k) ⟨c, by rw [hc]; ring, ?_⟩ ?_
      · have hp : (0 : Int) < 2 ^ k := by positivity
        have : |c| * 2 ^ k ≤ 2 ^ digits f * 2 ^ k := by
          have : |s + x| = |c| * 2 ^ k := by rw [hc, abs_mul, abs_of_pos hp, mul_comm]
          omega
        have := le_of_mul_le_mul_right this hp
        rw [digits_eq, Int.abs_eq_natAbs] at this
        exact_mod_cast this
      · have : |s + x| ≤ inf f := by omega
        rw [inf_eq, Int.abs_eq_natAbs] at this
        exact_mod_cast this
    subst ht
    rw [ih (fun y hy => h1 y (by simp [hy])) hd (by omega) (by omega), List.sum_cons]
    ring

/-- C183: the sum is exact where the elements are multiples of some power of two and their magnitudes make no more than 2^24 or 2^53 times that. -/
theorem float_sum_exact (f : Fmt) (k : Nat) (xs : List Int) (r : Int) (h : Running f 0 xs r) (hk : ∀ x ∈ xs, (2 ^ k : Int) ∣ x)
    (hs : (xs.map fun x => |x|).sum ≤ 2 ^ digits f * 2 ^ k) (hi : (xs.map fun x => |x|).sum < inf f) : r = xs.sum := by
  have := running_exact h hk (dvd_zero _) (by rwa [abs_zero, Int.zero_add]) (by rwa [abs_zero, Int.zero_add])
  rwa [Int.zero_add] at this

/-- C183: so whole numbers are added exactly up to 2^24 or 2^53. -/
theorem float_sum_whole (f : Fmt) (a : Arr (Elem f)) (o : Nat) (zs : List Int) (ha : Shaped a o [(zs.length : Int)]) (h0 : zs ≠ [])
    (hx : RowAt a.data o (elements f (zs.map (· * one f)))) (hs : (zs.map fun z => |z|).sum ≤ 2 ^ digits f) (junk : List (Elem f)) :
    sumElems f junk a = .ok ⟨[⟨some (zs.sum * one f)⟩], none⟩ := by
  have hle : ∀ z ∈ zs, |z| ≤ 2 ^ digits f := fun z hz =>
    (List.single_le_sum (l := zs.map fun z => |z|) (by simp only [List.mem_map]; rintro _ ⟨y, -, rfl⟩; exact abs_nonneg y) _ (List.mem_map_of_mem hz)).trans hs
  have hbig : (2 ^ digits f : Int) * one f < inf f := by cases f <;> decide +kernel
  have h1 := one_pos' f
  have hfin : ∀ x ∈ zs.map (· * one f), Finite f x := by
    intro x hx
    obtain ⟨z, hz, rfl⟩ := List.mem_map.1 hx
    have hb := hle z hz
    refine (finite_iff f _).2 ⟨?_, ?_⟩
    · rw [one_eq, Int.natAbs_mul, Int.natAbs_pow]
      refine short_shift ?_
      have hb' : z.natAbs ≤ 2 ^ (f.frac + 1) := by
        rw [digits_eq, Int.abs_eq_natAbs] at hb
        exact_mod_cast hb
      rcases Nat.lt_or_eq_of_le hb' with g | g
      · exact ⟨z.natAbs, 0, by simp, g⟩
      · exact ⟨1, f.frac + 1, by rw [g]; simp, Nat.one_lt_two_pow (by omega)⟩
    · have : |z * one f| < inf f := by
        rw [abs_mul, abs_of_pos h1]
        exact lt_of_le_of_lt (Int.mul_le_mul_of_nonneg_right hb h1.le) hbig
      rw [inf_eq, Int.abs_eq_natAbs] at this
      exact_mod_cast this
  obtain ⟨r, e, hr⟩ := float_sum_vector f a o _ (by simpa using ha) (by simpa using h0) hfin hx junk
  have hsum : ((zs.map (· * one f)).map fun x => |x|).sum = (zs.map fun z => |z|).sum * one f := by
    rw [List.map_map, ← List.sum_map_mul_right]
    congr 1
    refine List.map_congr_left fun z _ => ?_
    simp [abs_mul, abs_of_pos h1]
  have h2 : ((zs.map (· * one f)).map fun x => |x|).sum ≤ 2 ^ digits f * one f := by
    rw [hsum]
    exact Int.mul_le_mul_of_nonneg_right hs h1.le
  have := float_sum_exact f f.unit _ r hr (by
    intro x hx
    obtain ⟨z, -, rfl⟩ := List.mem_map.1 hx
    rw [one_eq]
    exact Int.dvd_mul_left _ _) (by rw [← one_eq]; exact h2) (lt_of_le_of_lt h2 hbig)
  rw [e, this, List.sum_map_mul_right]
  simp

theorem fold_none {f : Fmt} : ∀ row : List (Elem f), row.foldl (· + ·) (⟨none⟩ : Elem f) = ⟨none⟩
  | [] => rfl
  | _ :: row => fold_none row

theorem fold_nan {f : Fmt} : ∀ (row : List (Elem f)) (s : Elem f), ⟨none⟩ ∈ row → row.foldl (· + ·) s = ⟨none⟩
  | [], _, h => by simp at h
  | x :: row, s, h => by
    rcases List.mem_cons.1 h with h | h
    · subst h
      have e : s + (⟨none⟩ : Elem f) = ⟨none⟩ := by
        show (⟨addF f s.v none⟩ : Elem f) = ⟨none⟩
        cases s.v <;> rfl
      rw [List.foldl_cons, e, fold_none]
    · exact fold_nan row _ h

/-- C183: with an element that is not a number the sum is not a number either, whatever the others are. -/
theorem float_sum_nan (f : Fmt) (a : Arr (Elem f)) (o : Nat) (row : List (Elem f)) (ha : Shaped a o [(row.length : Int)]) (hx : RowAt a.data o row)
    (hn : ⟨none⟩ ∈ row) (junk : List (Elem f)) : sumElems f junk a = .ok ⟨[⟨none⟩], none⟩ := by
  have := Rows.sum_vector_fold f.kind (kind_cases f) a o row ha (List.ne_nil_of_mem hn) hx junk
  rw [fold_nan row 0 hn] at this
  exact this

example : ∃ (a : Arr (Elem .double)) (row : List (Elem .double)), Shaped a 0 [(row.length : Int)] ∧ RowAt a.data 0 row ∧ ⟨none⟩ ∈ row ∧ row.length = 2 :=
  ⟨⟨[⟨some 1⟩, ⟨none⟩], none⟩, [⟨some 1⟩, ⟨none⟩], .plain rfl (by simp), fun t _ => by simp, by simp, rfl⟩

/-- C183 for complex numbers of single precision: real and imaginary parts are added on their own, each as above. -/
theorem complex_sum_vector (a : Arr ElemC) (o : Nat) (xs ys : List Int) (hl : xs.length = ys.length) (ha : Shaped a o [(xs.length : Int)]) (h0 : xs ≠ [])
    (hf : ∀ x ∈ xs, Finite .float x) (hg : ∀ y ∈ ys, Finite .float y) (hx : RowAt a.data o (complexElements xs ys)) (junk : List ElemC) :
    ∃ r i, sumComplex junk a = .ok ⟨[⟨⟨some r⟩, ⟨some i⟩⟩], none⟩ ∧ Running .float 0 xs r ∧ Running .float 0 ys i := by
  have hi : |(0 : Int)| ≤ inf .float := by rw [abs_zero]; exact (inf_pos _).le
  obtain ⟨r, e, hr, -⟩ := fold_running (f := .float) xs 0 hi hf
  obtain ⟨i, e', hr', -⟩ := fold_running (f := .float) ys 0 hi hg
  refine ⟨r, i, ?_, hr, hr'⟩
  have hlen : (complexElements xs ys).length = xs.length := by simp [complexElements, hl]
  have := Rows.sum_vector_fold .cfloat (.inr (.inr rfl)) a o (complexElements xs ys) (by rw [hlen]; exact ha)
    (fun h => h0 (by simpa [h] using hlen.symm)) hx junk
  have fold : ∀ (xs ys : List Int) (s t : Elem .float), xs.length = ys.length →
      (complexElements xs ys).foldl (· + ·) (⟨s, t⟩ : ElemC) = ⟨(elements .float xs).foldl (· + ·) s, (elements .float ys).foldl (· + ·) t⟩ := by
    intro xs
    induction xs with
    | nil => intro ys s t h; cases ys with
      | nil => rfl
      | cons => simp at h
    | cons x xs ih => intro ys s t h; cases ys with
      | nil => simp at h
      | cons y ys => exact ih ys _ _ (by simpa using h)
  rw [show (0 : ElemC) = ⟨⟨some 0⟩, ⟨some 0⟩⟩ from rfl, fold xs ys _ _ hl, e, e'] at this
  exact this

/-- The numbers 1 + 2i and 2 + i. -/
example : ∃ a : Arr ElemC, Shaped a 0 [(([2 ^ 149, 2 ^ 150] : List Int).length : Int)] ∧ (∀ x ∈ ([2 ^ 149, 2 ^ 150] : List Int), Finite .float x) ∧
    (∀ x ∈ ([2 ^ 150, 2 ^ 149] : List Int), Finite .float x) ∧ RowAt a.data 0 (complexElements [2 ^ 149, 2 ^ 150] [2 ^ 150, 2 ^ 149]) ∧
    sumComplex [] a = .ok ⟨[⟨⟨some (3 * 2 ^ 149)⟩, ⟨some (3 * 2 ^ 149)⟩⟩], none⟩ := by
  have f1 : Finite .float (2 ^ 149) := ⟨0x3F800000, by decide +kernel, by decide +kernel⟩
  have f2 : Finite .float (2 ^ 150) := ⟨0x40000000, by decide +kernel, by decide +kernel⟩
  refine ⟨⟨complexElements [2 ^ 149, 2 ^ 150] [2 ^ 150, 2 ^ 149], none⟩, .plain rfl (by simp [complexElements]), ?_, ?_, fun t _ => by simp, by decide +kernel⟩ <;>
  · simp only [List.mem_cons, List.not_mem_nil, or_false]
    rintro x (rfl | rfl) <;> assumption

/-- The order of the elements matters: 2^24, 1 and 1. -/
theorem float_sum_order_matters :
    sumElems .float [] ⟨elements .float [2 ^ 173, 2 ^ 149, 2 ^ 149], none⟩ = .ok ⟨[⟨some (2 ^ 173)⟩], none⟩ ∧
    sumElems .float [] ⟨elements .float [2 ^ 149, 2 ^ 149, 2 ^ 173], none⟩ = .ok ⟨[⟨some (2 ^ 173 + 2 ^ 150)⟩], none⟩ := by
  decide +kernel

/-- The numbers 1, 2 and 2^24 in an array: the hypotheses of the theorems above are met, with the view of the last two for `float_sum_whole`. -/
example : (∃ a : Arr (Elem .float), Shaped a 0 [(([2 ^ 149, 2 ^ 150, 2 ^ 173] : List Int).length : Int)] ∧
      (∀ x ∈ ([2 ^ 149, 2 ^ 150, 2 ^ 173] : List Int), Finite .float x) ∧ RowAt a.data 0 (elements .float [2 ^ 149, 2 ^ 150, 2 ^ 173]) ∧
      sumElems .float [] a = .ok ⟨[⟨some (2 ^ 173 + 2 ^ 151)⟩], none⟩) ∧
    ∃ a : Arr (Elem .float), Shaped a 1 [(([2, 5] : List Int).length : Int)] ∧ RowAt a.data 1 (elements .float (([2, 5] : List Int).map (· * one .float))) ∧
      (([2, 5] : List Int).map fun z => |z|).sum ≤ 2 ^ digits .float := by
  refine ⟨⟨⟨elements .float [2 ^ 149, 2 ^ 150, 2 ^ 173], none⟩, .plain rfl (by simp [elements]), ?_, fun t _ => by simp, by decide +kernel⟩,
    ⟨elements .float [2 ^ 149, 2 * 2 ^ 149, 5 * 2 ^ 149], some [1, 2, 1]⟩, .view 1 [2] (by decide +kernel) (by simp [elements]), fun t ht => ?_, by decide +kernel⟩
  · simp only [List.mem_cons, List.not_mem_nil, or_false]
    rintro x (rfl | rfl | rfl)
    · exact ⟨0x3F800000, by decide +kernel, by decide +kernel⟩
    · exact ⟨0x40000000, by decide +kernel, by decide +kernel⟩
    · exact ⟨0x4B800000, by decide +kernel, by decide +kernel⟩
  · match t with
    | 0 => rfl
    | 1 => rfl
    | t + 2 => simp [elements] at ht

/-- Rows 1, 2 and 4, 8: those of `float_sum_rows`. -/
example : ∃ (a : Arr (Elem .float)) (xs : Nat → List Int), Shaped a 0 ([(2 : Int)] ++ [((2 : Nat) : Int)]) ∧
    ∀ i, i < 2 → (xs i).length = 2 ∧ RowAt a.data (0 + 2 * i) (elements .float (xs i)) ∧ ∀ x ∈ xs i, Finite .float x := by
  have f1 : Finite .float (2 ^ 149) := ⟨0x3F800000, by decide +kernel, by decide +kernel⟩
  have f2 : Finite .float (2 ^ 150) := ⟨0x40000000, by decide +kernel, by decide +kernel⟩
  have f4 : Finite .float (2 ^ 151) := ⟨0x40800000, by decide +kernel, by decide +kernel⟩
  have f8 : Finite .float (2 ^ 152) := ⟨0x41000000, by decide +kernel, by decide +kernel⟩
  refine ⟨⟨elements .float [2 ^ 149, 2 ^ 150, 2 ^ 151, 2 ^ 152], some [0, 2, 2, 2, 1]⟩, fun i => if i = 0 then [2 ^ 149, 2 ^ 150] else [2 ^ 151, 2 ^ 152],
    .view 0 [2, 2] (by decide +kernel) (by simp [elements]), fun i hi => ?_⟩
  match i with
  | 0 => exact ⟨rfl, fun t ht => by match t with | 0 => rfl | 1 => rfl | t + 2 => simp [elements] at ht, by simp; exact ⟨f1, f2⟩⟩
  | 1 => exact ⟨rfl, fun t ht => by match t with | 0 => rfl | 1 => rfl | t + 2 => simp [elements] at ht, by simp; exact ⟨f4, f8⟩⟩
  | i + 2 => omega

/-- The sums 2^24 of 2^24 and 1 and 2^24 + 2 of 2^24 and 2: those of `float_sum_error`, `float_sum_keeps_order` and, for the second, `float_sum_exact`. -/
example : ∃ r r', Running .float 0 [2 ^ 173, 2 ^ 149] r ∧ Running .float 0 [2 ^ 173, 2 ^ 150] r' ∧ Finite .float (2 ^ 173) ∧ |r| < inf .float ∧
    List.Forall₂ (· ≤ ·) ([2 ^ 173, 2 ^ 149] : List Int) [2 ^ 173, 2 ^ 150] ∧ (∀ x ∈ ([2 ^ 173, 2 ^ 150] : List Int), (2 ^ 150 : Int) ∣ x) ∧
    (([2 ^ 173, 2 ^ 150] : List Int).map fun x => |x|).sum ≤ 2 ^ digits .float * 2 ^ 150 ∧ (([2 ^ 173, 2 ^ 150] : List Int).map fun x => |x|).sum < inf .float := by
  have f0 : Finite .float (2 ^ 173) := ⟨0x4B800000, by decide +kernel, by decide +kernel⟩
  have f1 : Finite .float (2 ^ 149) := ⟨0x3F800000, by decide +kernel, by decide +kernel⟩
  have f2 : Finite .float (2 ^ 150) := ⟨0x40000000, by decide +kernel, by decide +kernel⟩
  have hi : |(0 : Int)| ≤ inf .float := by decide +kernel
  obtain ⟨r, e, h, -⟩ := fold_running (f := .float) [2 ^ 173, 2 ^ 149] 0 hi (by simp only [List.mem_cons, List.not_mem_nil, or_false]; rintro x (rfl | rfl) <;> assumption)
  obtain ⟨r', -, h', -⟩ := fold_running (f := .float) [2 ^ 173, 2 ^ 150] 0 hi (by simp only [List.mem_cons, List.not_mem_nil, or_false]; rintro x (rfl | rfl) <;> assumption)
  have hr : r = 2 ^ 173 := by
    have : (elements .float [2 ^ 173, 2 ^ 149]).foldl (· + ·) (⟨some 0⟩ : Elem .float) = ⟨some (2 ^ 173)⟩ := by decide +kernel
    rw [this] at e
    simpa using e.symm
  refine ⟨r, r', h, h', f0, by rw [hr]; decide +kernel, .cons (le_refl _) (.cons (by decide +kernel) .nil), ?_, by decide +kernel, by decide +kernel⟩
  simp only [List.mem_cons, List.not_mem_nil, or_false]
  rintro x (rfl | rfl) <;> decide +kernel

end Libube.FloatRange

#print axioms Libube.FloatRange.float_sum_vector
#print axioms Libube.FloatRange.float_sum_rows
#print axioms Libube.FloatRange.float_sum_error
#print axioms Libube.FloatRange.float_sum_keeps_order
#print axioms Libube.FloatRange.float_sum_exact
#print axioms Libube.FloatRange.float_sum_whole
#print axioms Libube.FloatRange.float_sum_order_matters
#print axioms Libube.FloatRange.float_sum_nan
#print axioms Libube.FloatRange.complex_sum_vector

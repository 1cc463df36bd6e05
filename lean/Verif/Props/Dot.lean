import Verif.Props.Rows
import Verif.Props.Transpose
import Verif.Lemmas.Dot
import Mathlib.LinearAlgebra.Matrix.Notation

/-! # Properties of inner products and matrix multiplication (C98–C100)

Arithmetic is that of a commutative ring. -/

namespace Libube.Dot

open View Transpose RowsSpec DotSpec Rows

theorem _root_.Libube.DotSpec.IsMatrix.unique {a : Arr α} {o m n : Nat} {A B : Matrix (Fin m) (Fin n) α} (h : IsMatrix a o A) (h' : IsMatrix a o B) : A = B := by
  ext i j
  exact Option.some.inj ((h.2 i j).symm.trans (h'.2 i j))

theorem _root_.Libube.DotSpec.IsMatrix.ext {a b : Arr α} {m n : Nat} {A : Matrix (Fin m) (Fin n) α} (h : IsMatrix a 0 A) (h' : IsMatrix b 0 A)
    (hl : a.data.length = m * n) (hl' : b.data.length = m * n) : a = b := by
  have hd : a.data = b.data := by
    refine List.ext_getElem? fun q => ?_
    by_cases hq : q < m * n
    · have hn : 0 < n := Nat.pos_of_mul_pos_left (show 0 < m * n by omega)
      have hi : q / n < m := (Nat.div_lt_iff_lt_mul hn).mpr hq
      have hj : q % n < n := Nat.mod_lt _ hn
      have e := h.2 ⟨q / n, hi⟩ ⟨q % n, hj⟩
      have e' := h'.2 ⟨q / n, hi⟩ ⟨q % n, hj⟩
      simp only [Nat.zero_add, Nat.div_add_mod] at e e'
      rw [e, e']
    · rw [List.getElem?_eq_none (by omega), List.getElem?_eq_none (by omega)]
  have key : ∀ {v : Arr α} {A : Matrix (Fin m) (Fin n) α}, IsMatrix v 0 A → View.view ⟨v.data, none⟩ [(m : Int), (n : Int)] 0 = .ok v := fun {v A} hv => by
    have hs := hv.1
    generalize hsh : [(m : Int), (n : Int)] = sh at hs
    generalize hz : (0 : Nat) = z at hs
    cases hs with
    | plain hi hl => cases hsh
    | view o sh hv hl => subst hsh; subst hz; exact hv
  have e := key h
  have e' := key h'
  rw [hd] at e
  exact Outcome.ok.inj (e.symm.trans e')

/-! ## C98 -/

/-- C98: `dot(a, b)` of two matrices is their product, as a new matrix.  The operands may be views of
    larger arrays.
    Missing for the full claim: complex numbers and integers (`matrix_kind_throws`, `matrix_cdouble_aborts`), and more than two dimensions of
    the first operand (`batch_overruns`). -/
theorem matrix_product_partial [CommRing α] (conj : α → α) (k : Kind) (hk : k = .float ∨ k = .double) (a b : Arr α) (o p : Nat) {m l n : Nat}
    (A : Matrix (Fin m) (Fin l) α) (B : Matrix (Fin l) (Fin n) α) (ha : IsMatrix a o A) (hb : IsMatrix b p B) (hm : 0 < m) (hl : 0 < l) (hn : 0 < n)
    (junk : List α) (hj : junk.length = m * n) (hmax : m * n < 2147483648) :
    ∃ out, dot conj k k junk a b = .ok out ∧ IsMatrix out 0 (A * B) ∧ out.data.length = m * n := by
  obtain ⟨hsa, hea⟩ := ha
  obtain ⟨hsb, heb⟩ := hb
  obtain ⟨sa, ra, la⟩ := hsa.shape
  obtain ⟨sb, rb, lb⟩ := hsb.shape
  have hprod : ([(m : Int), (n : Int)]).prod = ((m * n : Nat) : Int) := by simp
  obtain ⟨e1, hf, hnew⟩ := newView_eq (sh := [(m : Int), (n : Int)]) (junk := junk) (by simp)
    (by intro d hd; simp only [List.mem_cons, List.not_mem_nil, or_false] at hd; omega) (by rw [hprod, hj]) (by rw [hprod]; exact lt_max hmax)
  have so : HasShape (⟨junk, some (0 :: flat [(m : Int), (n : Int)])⟩ : Arr α) ((0 : Nat) : Int) [(m : Int), (n : Int)] := .view _ _ rfl hf (by simp)
  obtain ⟨c', e2, g1, g2, _⟩ := gemm_eq (as := a.data) (bs := b.data) (c := junk) (m := m) (n := n) (k := l) (pa := o) (pb := p) (pc := 0)
    (x := fun i t => if h : i < m ∧ t < l then A ⟨i, h.1⟩ ⟨t, h.2⟩ else 0) (y := fun t j => if h : t < l ∧ j < n then B ⟨t, h.1⟩ ⟨j, h.2⟩ else 0) hn hl
    (fun i hi t ht => by simp only [hi, ht, and_self, dite_true]; exact hea ⟨i, hi⟩ ⟨t, ht⟩)
    (fun t ht j hj => by simp only [ht, hj, and_self, dite_true]; exact heb ⟨t, ht⟩ ⟨j, hj⟩) (by omega)
  refine ⟨⟨c', some (0 :: flat [(m : Int), (n : Int)])⟩, ?_, ⟨.view 0 _ (hnew c' g1).1 (by show (c'.length : Int) < _; exact lt_max (by omega)), fun i j => ?_⟩, by show c'.length = _; omega⟩
  · have h0 : a.data[o]? = some (A ⟨0, hm⟩ ⟨0, hl⟩) := by simpa using hea ⟨0, hm⟩ ⟨0, hl⟩
    have b1 := blockStep_eq (lead := []) (tail := [(m : Int), (l : Int)]) sa
    have b2 := blockStep_eq (lead := []) (tail := [(m : Int), (n : Int)]) so
    simp only [List.length_cons, List.length_nil] at b1 b2
    have ea : alloc junk a b = .ok ⟨junk, some (0 :: flat [(m : Int), (n : Int)])⟩ := by
      unfold alloc
      rw [sa.dim, sb.dim, if_neg (show ¬ [(l : Int), (n : Int)].length = 1 by simp), if_pos (show [(l : Int), (n : Int)].length = 2 from rfl),
        if_neg (show ¬ [(m : Int), (l : Int)].length < 2 by simp),
        show shapeLoop a 0 [(m : Int), (l : Int)].length = .ok [(m : Int), (l : Int)] from sa.shapeLoop [] _ rfl, Outcome.bind_ok,
        show shape b 1 = .ok (n : Int) from sb.shape (pre := [(l : Int)]) (suf := []) rfl, Outcome.bind_ok,
        show ipSet [(m : Int), (l : Int)] ([(m : Int), (l : Int)].length - 1) (n : Int) = .ok [(m : Int), (n : Int)] from rfl, Outcome.bind_ok, sa.offset,
        Outcome.bind_ok, load_at rfl h0, Outcome.bind_ok, e1]
    unfold dot
    rw [ea, Outcome.bind_ok]
    unfold broadcast
    rw [sa.dim, sb.dim, sa.size, Outcome.bind_ok, sb.size, Outcome.bind_ok, if_neg (by simp), if_neg (by simp), if_neg (by simp)]
    simp only [List.length_cons, List.length_nil]
    rw [b1, Outcome.bind_ok, b2, Outcome.bind_ok]
    have hml : 0 < m * l := Nat.mul_pos hm hl
    rw [show ([(m : Int), (l : Int)]).prod = ((m * l : Nat) : Int) by simp, if_neg (by omega), Int.tdiv_self (by omega)]
    simp only [show (1 : Int).toNat = 0 + 1 from rfl, blocks]
    unfold vector
    rw [if_neg (show k ≠ .cdouble by rcases hk with rfl | rfl <;> decide)]
    rw [sa.offset, Outcome.bind_ok, sb.offset, Outcome.bind_ok, so.offset, Outcome.bind_ok, sb.dim]
    simp only [List.length_cons, List.length_nil]
    rw [if_neg (show ¬ 0 + 1 + 1 = 1 by decide), if_pos trivial, show shape a 0 = .ok (m : Int) from sa.shape (pre := []) (suf := [(l : Int)]) rfl,
      show shape a 1 = .ok (l : Int) from sa.shape (pre := [(m : Int)]) (suf := []) rfl,
      show shape b 0 = .ok (l : Int) from sb.shape (pre := []) (suf := [(n : Int)]) rfl,
      show shape b 1 = .ok (n : Int) from sb.shape (pre := [(l : Int)]) (suf := []) rfl]
    simp only [Outcome.bind_ok, ne_eq, not_true_eq_false, if_false, Int.toNat_natCast, Nat.cast_zero, Int.mul_zero, Int.add_zero]
    simp only [Nat.cast_zero] at e2
    rcases hk with rfl | rfl <;> simp only [] <;> rw [e2] <;> rfl
  · have := g2 i i.2 j j.2
    rw [Nat.zero_add] at this
    rw [Nat.zero_add]
    refine this.trans ?_
    rw [Matrix.mul_apply, Finset.sum_range]
    refine congrArg some (Finset.sum_congr rfl fun t _ => ?_)
    simp only [Fin.is_lt, and_self, dite_true, Fin.eta]
    exact mul_comm _ _

/-- A 2 by 3 matrix after an element that does not belong to it, and a 3 by 2 matrix. -/
def mat23 : Arr Int := ⟨[9, 1, 2, 3, 4, 5, 6], some [1, 2, 3, 3, 1]⟩
def mat32 : Arr Int := ⟨[1, 0, 0, 1, 1, 1], some [0, 3, 2, 2, 1]⟩

example : IsMatrix mat23 1 !![1, 2, 3; 4, 5, 6] ∧ IsMatrix mat32 0 !![1, 0; 0, 1; 1, 1] ∧
    dot id .double .double [0, 0, 0, 0] mat23 mat32 = .ok ⟨[4, 5, 10, 11], some [0, 2, 2, 2, 1]⟩ :=
  ⟨⟨.view 1 [2, 3] (by decide) (by decide), by decide⟩, ⟨.view 0 [3, 2] (by decide) (by decide), by decide⟩, by decide⟩

/-- The result of allocation for two matrices. -/
theorem alloc_matrix {a b : Arr α} {o p m l l' n : Nat} (sa : HasShape a (o : Int) [(m : Int), (l : Int)]) (sb : HasShape b (p : Int) [(l' : Int), (n : Int)])
    (ra : m * l + o ≤ a.data.length) (hm : 0 < m) (hl : 0 < l) (junk : List α) :
    alloc junk a b = newView [(m : Int), (n : Int)] junk := by
  have hml : 0 < m * l := Nat.mul_pos hm hl
  obtain ⟨x, h0⟩ : ∃ x, a.data[o]? = some x := ⟨_, List.getElem?_eq_getElem (by omega)⟩
  unfold alloc
  rw [sa.dim, sb.dim, if_neg (show ¬ [(l' : Int), (n : Int)].length = 1 by simp), if_pos (show [(l' : Int), (n : Int)].length = 2 from rfl),
    if_neg (show ¬ [(m : Int), (l : Int)].length < 2 by simp),
    show shapeLoop a 0 [(m : Int), (l : Int)].length = .ok [(m : Int), (l : Int)] from sa.shapeLoop [] _ rfl, Outcome.bind_ok,
    show shape b 1 = .ok (n : Int) from sb.shape (pre := [(l' : Int)]) (suf := []) rfl, Outcome.bind_ok,
    show ipSet [(m : Int), (l : Int)] ([(m : Int), (l : Int)].length - 1) (n : Int) = .ok [(m : Int), (n : Int)] from rfl, Outcome.bind_ok, sa.offset,
    Outcome.bind_ok, load_at rfl h0, Outcome.bind_ok]

/-- Up to the first call of `vector` for two matrices. -/
theorem dot_matrix [Ring α] (conj : α → α) (k : Kind) {a b : Arr α} {o p m l l' n : Nat} (ha : Shaped a o [(m : Int), (l : Int)]) (hb : Shaped b p [(l' : Int), (n : Int)])
    (hm : 0 < m) (hl : 0 < l) (hn : 0 < n) (junk : List α) (hj : junk.length = m * n) (hmax : m * n < 2147483648) :
    dot conj k k junk a b = (vector conj k a b ⟨junk, some (0 :: flat [(m : Int), (n : Int)])⟩ 0 0 junk).bind
      (fun d => .ok ⟨d, some (0 :: flat [(m : Int), (n : Int)])⟩) := by
  obtain ⟨sa, ra, la⟩ := ha.shape
  obtain ⟨sb, rb, lb⟩ := hb.shape
  have hprod : ([(m : Int), (n : Int)]).prod = ((m * n : Nat) : Int) := by simp
  obtain ⟨e1, hf, hnew⟩ := newView_eq (sh := [(m : Int), (n : Int)]) (junk := junk) (by simp)
    (by intro d hd; simp only [List.mem_cons, List.not_mem_nil, or_false] at hd; omega) (by rw [hprod, hj]) (by rw [hprod]; exact lt_max hmax)
  have so : HasShape (⟨junk, some (0 :: flat [(m : Int), (n : Int)])⟩ : Arr α) ((0 : Nat) : Int) [(m : Int), (n : Int)] := .view _ _ rfl hf (by simp)
  have b1 := blockStep_eq (lead := []) (tail := [(m : Int), (l : Int)]) sa
  have b2 := blockStep_eq (lead := []) (tail := [(m : Int), (n : Int)]) so
  simp only [List.length_cons, List.length_nil] at b1 b2
  have hml : 0 < m * l := Nat.mul_pos hm hl
  have hpa : ([(m : Int), (l : Int)]).prod = ((m * l : Nat) : Int) := by simp
  unfold dot
  rw [alloc_matrix sa sb (by rw [hpa] at ra; exact_mod_cast ra) hm hl junk, e1, Outcome.bind_ok]
  unfold broadcast
  rw [sa.dim, sb.dim, sa.size, Outcome.bind_ok, sb.size, Outcome.bind_ok, if_neg (by simp), if_neg (by simp), if_neg (by simp)]
  simp only [List.length_cons, List.length_nil]
  rw [b1, Outcome.bind_ok, b2, Outcome.bind_ok, hpa, if_neg (by omega), Int.tdiv_self (by omega)]
  simp only [show (1 : Int).toNat = 0 + 1 from rfl, blocks, Nat.cast_zero, Int.mul_zero]
  cases vector conj k a b ⟨junk, some (0 :: flat [(m : Int), (n : Int)])⟩ 0 0 junk <;> rfl

/-- C98: matrices whose inner dimensions differ are refused. -/
theorem incompatible_throws [Ring α] (conj : α → α) (k : Kind) (hk : k ≠ .cdouble) (a b : Arr α) (o p m l l' n : Nat) (ha : Shaped a o [(m : Int), (l : Int)])
    (hb : Shaped b p [(l' : Int), (n : Int)]) (hne : l ≠ l') (hm : 0 < m) (hl : 0 < l) (hn : 0 < n) (junk : List α) (hj : junk.length = m * n)
    (hmax : m * n < 2147483648) : dot conj k k junk a b = .thrown (.error "Dot::vector: Shapes not compatible") := by
  rw [dot_matrix conj k ha hb hm hl hn junk hj hmax]
  have sa := ha.shape.1
  have sb := hb.shape.1
  unfold vector
  rw [if_neg hk]
  rw [sa.offset, Outcome.bind_ok, sb.offset, Outcome.bind_ok, show offset (⟨junk, some (0 :: flat [(m : Int), (n : Int)])⟩ : Arr α) = .ok 0 from rfl, Outcome.bind_ok, sb.dim]
  simp only [List.length_cons, List.length_nil]
  rw [if_neg (show ¬ 0 + 1 + 1 = 1 by decide), if_pos trivial, show shape a 0 = .ok (m : Int) from sa.shape (pre := []) (suf := [(l : Int)]) rfl,
    show shape a 1 = .ok (l : Int) from sa.shape (pre := [(m : Int)]) (suf := []) rfl,
    show shape b 0 = .ok (l' : Int) from sb.shape (pre := []) (suf := [(n : Int)]) rfl,
    show shape b 1 = .ok (n : Int) from sb.shape (pre := [(l' : Int)]) (suf := []) rfl]
  simp only [Outcome.bind_ok]
  rw [if_pos (by omega)]
  rfl

example : Shaped mat23 1 [((2 : Nat) : Int), ((3 : Nat) : Int)] ∧
    dot id .double .double [0, 0, 0, 0, 0, 0] mat23 mat23 = .thrown (.error "Dot::vector: Shapes not compatible") :=
  ⟨.view 1 [2, 3] (by decide) (by decide), by decide⟩

/-- C98 fails for `cfloat` and integers: an exception, though the shapes agree. -/
theorem matrix_kind_throws [Ring α] (conj : α → α) (k : Kind) (hk : k ≠ .float ∧ k ≠ .double ∧ k ≠ .cdouble) (a b : Arr α) (o p m l n : Nat) (ha : Shaped a o [(m : Int), (l : Int)])
    (hb : Shaped b p [(l : Int), (n : Int)]) (hm : 0 < m) (hl : 0 < l) (hn : 0 < n) (junk : List α) (hj : junk.length = m * n)
    (hmax : m * n < 2147483648) : dot conj k k junk a b = .thrown (.error "Dot::vector: Unknown type") := by
  rw [dot_matrix conj k ha hb hm hl hn junk hj hmax]
  have sa := ha.shape.1
  have sb := hb.shape.1
  unfold vector
  rw [if_neg hk.2.2]
  rw [sa.offset, Outcome.bind_ok, sb.offset, Outcome.bind_ok, show offset (⟨junk, some (0 :: flat [(m : Int), (n : Int)])⟩ : Arr α) = .ok 0 from rfl, Outcome.bind_ok, sb.dim]
  simp only [List.length_cons, List.length_nil]
  rw [if_neg (show ¬ 0 + 1 + 1 = 1 by decide), if_pos trivial, show shape a 0 = .ok (m : Int) from sa.shape (pre := []) (suf := [(l : Int)]) rfl,
    show shape a 1 = .ok (l : Int) from sa.shape (pre := [(m : Int)]) (suf := []) rfl,
    show shape b 0 = .ok (l : Int) from sb.shape (pre := []) (suf := [(n : Int)]) rfl,
    show shape b 1 = .ok (n : Int) from sb.shape (pre := [(l : Int)]) (suf := []) rfl]
  simp only [Outcome.bind_ok, ne_eq, not_true_eq_false, if_false]
  cases k <;> first | exact absurd rfl hk.1 | exact absurd rfl hk.2.1 | exact absurd rfl hk.2.2 | rfl

example : Kind.cfloat ≠ .float ∧ Kind.cfloat ≠ .double ∧ Kind.cfloat ≠ .cdouble ∧
    dot id .cfloat .cfloat [0, 0, 0, 0] mat23 mat32 = .thrown (.error "Dot::vector: Unknown type") := by decide

/-- C98 fails for `cdouble`: an assertion that the first operand is an array ends the program. -/
theorem matrix_cdouble_aborts [Ring α] (conj : α → α) (a b : Arr α) (o p m l l' n : Nat) (ha : Shaped a o [(m : Int), (l : Int)])
    (hb : Shaped b p [(l' : Int), (n : Int)]) (hm : 0 < m) (hl : 0 < l) (hn : 0 < n) (junk : List α) (hj : junk.length = m * n)
    (hmax : m * n < 2147483648) : dot conj .cdouble .cdouble junk a b = .abort := by
  rw [dot_matrix conj .cdouble ha hb hm hl hn junk hj hmax]
  rfl

example : dot id .cdouble .cdouble [0, 0, 0, 0] mat23 mat32 = .abort := by decide

/-- C98 fails for more dimensions: three 2 by 2 matrices by one 2 by 2 matrix.  The first dimension is
    taken for the number of rows, and the memory after the operands is read. -/
theorem batch_overruns : ∃ a b : Arr Int, Shaped a 0 [3, 2, 2] ∧ Shaped b 0 [2, 2] ∧
    dot id .double .double (List.replicate 12 0) a b = .ub .outOfBounds :=
  ⟨⟨List.replicate 12 1, some [0, 3, 4, 2, 2, 2, 1]⟩, ⟨[1, 2, 3, 4], some [0, 2, 2, 2, 1]⟩, .view 0 [3, 2, 2] (by decide) (by decide),
    .view 0 [2, 2] (by decide) (by decide), by decide⟩

/-- C98 fails likewise where nothing is overrun: one matrix in three dimensions, of which only the first row is multiplied. -/
theorem batch_of_one : ∃ a b : Arr Int, Shaped a 0 [1, 2, 2] ∧ Shaped b 0 [2, 2] ∧
    dot id .double .double [0, 0, 0, 0] a b = .ok ⟨[7, 10, 0, 0], some [0, 1, 4, 2, 2, 2, 1]⟩ :=
  ⟨⟨[1, 2, 3, 4], some [0, 1, 4, 2, 2, 2, 1]⟩, ⟨[1, 2, 3, 4], some [0, 2, 2, 2, 1]⟩, .view 0 [1, 2, 2] (by decide) (by decide),
    .view 0 [2, 2] (by decide) (by decide), by decide⟩

/-! ## C99 -/

/-- The transpose of a matrix, by the transposition of C56. -/
theorem transpose_matrix {α : Type} (k : Kind) (hk : k = .float ∨ k = .double) (a : Arr α) (o : Nat) {m n : Nat} (A : Matrix (Fin m) (Fin n) α) (ha : IsMatrix a o A)
    (hm : 0 < m) (hn : 0 < n) (junk : List α) (hj : junk.length = m * n) :
    ∃ out, transposeNew k junk a = .ok out ∧ IsMatrix out 0 A.transpose ∧ out.data.length = m * n := by
  obtain ⟨hsa, hea⟩ := ha
  obtain ⟨sa, ra, la⟩ := hsa.shape
  have ra' : m * n + o ≤ a.data.length := by
    have : ([(m : Int), (n : Int)]).prod = ((m * n : Nat) : Int) := by simp
    rw [this] at ra
    exact_mod_cast ra
  have hb : ((1 * (m * n) : Nat) : Int) < 2 ^ 31 := by rw [Nat.one_mul]; omega
  obtain ⟨d, e, g1, g2, g3⟩ := transposeNew_eq (v := a) (o := o) (n := 1) (lead := []) (R := m) (C := n) rfl (by simp) hm hn sa (by omega) hb hk (junk := junk) (by omega)
  have hd : (d.length : Int) < 2 ^ 31 := by rw [g1]; exact hb
  refine ⟨_, e, ⟨.view 0 _ ?_ hd, fun i j => ?_⟩, by show d.length = _; omega⟩
  · have : ([(n : Int), (m : Int)]).prod = ((m * n : Nat) : Int) := by simp [mul_comm]
    refine view_make (a := ⟨d, none⟩) (sh := [(n : Int), (m : Int)]) (off := 0) (b := 0) rfl (by omega) (by simp) g3.fits.1 hd (by rw [this]; omega) ?_
    show _ ≤ (d.length : Int)
    rw [this, g1]
    omega
  · have h1 : (i : Nat) * m + j < m * n := by
      have := i.2; have := j.2
      calc (i : Nat) * m + j < i * m + m := by omega
        _ = m * (i + 1) := by ring
        _ ≤ m * n := Nat.mul_le_mul_left _ (by omega)
    have := g2 0 (by omega) (i * m + j) h1
    rw [prev_of j.2, Nat.mul_zero, Nat.zero_add, Nat.add_zero] at this
    rw [Nat.zero_add, Nat.mul_comm m]
    refine this.trans ?_
    rw [← Nat.add_assoc, Nat.mul_comm (j : Nat) n]
    exact hea j i

/-- C99: multiplication of matrices is associative.  Missing: as for C98. -/
theorem product_assoc_partial [CommRing α] (conj : α → α) (k : Kind) (hk : k = .float ∨ k = .double) (a b c : Arr α) (o p q : Nat) {m l n r : Nat}
    (A : Matrix (Fin m) (Fin l) α) (B : Matrix (Fin l) (Fin n) α) (C : Matrix (Fin n) (Fin r) α) (ha : IsMatrix a o A) (hb : IsMatrix b p B) (hc : IsMatrix c q C)
    (hm : 0 < m) (hl : 0 < l) (hn : 0 < n) (hr : 0 < r) (j1 j2 j3 j4 : List α) (h1 : j1.length = m * n) (h2 : j2.length = m * r) (h3 : j3.length = l * r)
    (h4 : j4.length = m * r) (hmn : m * n < 2147483648) (hmr : m * r < 2147483648) (hlr : l * r < 2147483648) :
    ∃ ab bc x y, dot conj k k j1 a b = .ok ab ∧ dot conj k k j2 ab c = .ok x ∧ dot conj k k j3 b c = .ok bc ∧ dot conj k k j4 a bc = .ok y ∧
      IsMatrix x 0 (A * B * C) ∧ x = y := by
  obtain ⟨ab, e1, i1, _⟩ := matrix_product_partial conj k hk a b o p A B ha hb hm hl hn j1 h1 hmn
  obtain ⟨x, e2, i2, l2⟩ := matrix_product_partial conj k hk ab c 0 q (A * B) C i1 hc hm hn hr j2 h2 hmr
  obtain ⟨bc, e3, i3, _⟩ := matrix_product_partial conj k hk b c p q B C hb hc hl hn hr j3 h3 hlr
  obtain ⟨y, e4, i4, l4⟩ := matrix_product_partial conj k hk a bc o 0 A (B * C) ha i3 hm hl hr j4 h4 hmr
  rw [← Matrix.mul_assoc] at i4
  exact ⟨ab, bc, x, y, e1, e2, e3, e4, i2, i2.ext i4 l2 l4⟩

/-- C99: the transpose of a product is the product of the transposes in the other order.  Missing: as for C98. -/
theorem product_transpose_partial [CommRing α] (conj : α → α) (k : Kind) (hk : k = .float ∨ k = .double) (a b : Arr α) (o p : Nat) {m l n : Nat}
    (A : Matrix (Fin m) (Fin l) α) (B : Matrix (Fin l) (Fin n) α) (ha : IsMatrix a o A) (hb : IsMatrix b p B)
    (hm : 0 < m) (hl : 0 < l) (hn : 0 < n) (j1 j2 j3 j4 j5 : List α) (h1 : j1.length = m * n) (h2 : j2.length = m * n) (h3 : j3.length = m * l)
    (h4 : j4.length = l * n) (h5 : j5.length = n * m) (hmn : m * n < 2147483648) :
    ∃ ab at' bt x y, dot conj k k j1 a b = .ok ab ∧ transposeNew k j2 ab = .ok x ∧ transposeNew k j3 a = .ok at' ∧ transposeNew k j4 b = .ok bt ∧
      dot conj k k j5 bt at' = .ok y ∧ IsMatrix x 0 (A * B).transpose ∧ x = y := by
  obtain ⟨ab, e1, i1, _⟩ := matrix_product_partial conj k hk a b o p A B ha hb hm hl hn j1 h1 hmn
  obtain ⟨x, e2, i2, l2⟩ := transpose_matrix k hk ab 0 (A * B) i1 hm hn j2 h2
  obtain ⟨at', e3, i3, _⟩ := transpose_matrix k hk a o A ha hm hl j3 h3
  obtain ⟨bt, e4, i4, _⟩ := transpose_matrix k hk b p B hb hl hn j4 h4
  obtain ⟨y, e5, i5, l5⟩ := matrix_product_partial conj k hk bt at' 0 0 B.transpose A.transpose i4 i3 hn hl hm j5 h5 (by rw [Nat.mul_comm]; exact hmn)
  rw [← Matrix.transpose_mul] at i5
  exact ⟨ab, at', bt, x, y, e1, e2, e3, e4, e5, i2, i2.ext i5 (by rw [l2, Nat.mul_comm]) l5⟩

example : (dot id .double .double [0, 0, 0, 0] mat23 mat32).bind (transposeNew .double [0, 0, 0, 0]) = .ok ⟨[4, 10, 5, 11], some [0, 2, 2, 2, 1]⟩ ∧
    ((transposeNew .double [0, 0, 0, 0, 0, 0] mat23).bind fun at' => (transposeNew .double [0, 0, 0, 0, 0, 0] mat32).bind fun bt =>
      dot id .double .double [0, 0, 0, 0] bt at') = .ok ⟨[4, 10, 5, 11], some [0, 2, 2, 2, 1]⟩ := by decide

/-! ## C100 -/

/-- What is multiplied from the left: the conjugate for complex numbers. -/
def left (conj : α → α) : Kind → α → α
  | .cfloat => conj
  | _ => id

theorem vector_row [Ring α] {conj : α → α} {k : Kind} (hk : k = .float ∨ k = .double ∨ k = .cfloat) {a b out : Arr α} {o p po c offA offO : Nat}
    (ha : offset a = .ok (o : Int)) (hb : HasShape b (p : Int) [(c : Int)]) (ho : offset out = .ok (po : Int)) {x y : Nat → α}
    (hx : ∀ t, t < c → a.data[o + offA + t]? = some (x t)) (hy : ∀ t, t < c → b.data[p + t]? = some (y t)) (dst : List α) (hd : po + offO < dst.length) :
    vector conj k a b out (offA : Int) (offO : Int) dst = .ok (dst.set (po + offO) (∑ t ∈ Finset.range c, left conj k (x t) * y t)) := by
  have key : ∀ f : α → α, dotLoop f a.data ((o : Int) + (offA : Int)) b.data (p : Int) 0 c 0 = .ok (∑ t ∈ Finset.range c, f (x t) * y t) := fun f => by
    have := dotLoop_eq (conj := f) (px := o + offA) (py := p) c 0 0 (fun t ht => hx t (by omega)) (fun t ht => hy t (by omega))
    simpa using this
  have st := fun z : α => store_at (d := dst) (i := (po : Int) + (offO : Int)) (n := po + offO) z (by push_cast; rfl) hd
  unfold vector
  rw [if_neg (show k ≠ .cdouble by rcases hk with rfl | rfl | rfl <;> decide)]
  rw [ha, Outcome.bind_ok, hb.offset, Outcome.bind_ok, ho, Outcome.bind_ok, hb.dim, if_pos (show [(c : Int)].length = 1 from rfl), hb.size, Outcome.bind_ok,
    List.prod_singleton, Int.toNat_natCast]
  rcases hk with rfl | rfl | rfl <;> simp only [left, key, Outcome.bind_ok, st]

/-- `dot(a, b)` for a vector `b` no longer than the rows of `a`. -/
theorem dot_rows_eq [Ring α] (conj : α → α) (k : Kind) (hk : k = .float ∨ k = .double ∨ k = .cfloat) {a b : Arr α} {o p n c d : Nat} {lead : List Int}
    (hs : HasShape a (o : Int) (lead ++ [(d : Int)])) (sb : HasShape b (p : Int) [(c : Int)]) (hn : lead.prod = n) (hc : 1 < c) (hd : c ≤ d) {x : Nat → Nat → α} {y : Nat → α}
    (hx : ∀ i, i < n → ∀ t, t < d → a.data[o + d * i + t]? = some (x i t)) (hy : ∀ t, t < c → b.data[p + t]? = some (y t)) {out : Arr α}
    (ho : offset out = .ok ((0 : Nat) : Int)) (hstep : blockStep out 1 = .ok ((1 : Nat) : Int)) (hlen : out.data.length = n) :
    ∃ r, broadcast conj k k a b out = .ok r ∧ r.length = n ∧ ∀ i, i < n → r[i]? = some (∑ t ∈ Finset.range c, left conj k (x i t) * y t) := by
  have h1 := blockStep_eq hs
  simp only [List.length_singleton, List.prod_singleton] at h1
  obtain ⟨r, e, g1, g2, _⟩ := blocks_eq (vector conj k a b out) (d : Int) ((1 : Nat) : Int) 0 1 n (fun i _ _ => some (∑ t ∈ Finset.range c, left conj k (x i t) * y t)) n
    (fun i hi dst hdst => by
      refine ⟨dst.set i (∑ t ∈ Finset.range c, left conj k (x i t) * y t), ?_, by simp [hdst], fun q hq => ?_, fun q hq => ?_⟩
      · have := vector_row (conj := conj) hk (offA := d * i) (offO := 1 * i) hs.offset sb ho (fun t ht => hx i hi t (by omega)) hy dst (by omega)
        rw [show 0 + 1 * i = i by omega] at this
        rw [← this]
        push_cast
        rfl
      · obtain rfl : q = 0 := by omega
        rw [show 0 + 1 * i + 0 = i by omega, List.getElem?_set_self (by omega)]
      · rw [List.getElem?_set_ne]
        intro h
        exact hq 0 (by omega) (by omega))
    (fun _ _ _ _ _ _ => rfl) 0 n (by omega) out.data hlen
  refine ⟨r, ?_, g1, fun i hi => ?_⟩
  · unfold broadcast
    rw [hs.size, Outcome.bind_ok, sb.size, Outcome.bind_ok, sb.dim, hs.dim, List.prod_singleton, if_neg (by omega), if_neg (by simp), if_neg (by simp),
      List.length_singleton, h1, Outcome.bind_ok, hstep, Outcome.bind_ok, if_neg (by omega), List.prod_append, hn, List.prod_singleton, tdiv_blocks n d (by omega)]
    exact e
  · have := g2 i (by omega) hi 0 (by omega)
    rw [show 0 + 1 * i + 0 = i by omega] at this
    exact this

/-- `dot(a, b)` of two vectors where the second is no longer. -/
theorem dot_vectors_eq [Ring α] (conj : α → α) (k : Kind) (hk : k = .float ∨ k = .double ∨ k = .cfloat) (a b : Arr α) (o p c d : Nat)
    (ha : Shaped a o [(d : Int)]) (hb : Shaped b p [(c : Int)]) (hc : 1 < c) (hd : c ≤ d) (x y : Nat → α) (hx : ∀ t, t < d → a.data[o + t]? = some (x t))
    (hy : ∀ t, t < c → b.data[p + t]? = some (y t)) (junk : List α) :
    dot conj k k junk a b = .ok ⟨[∑ t ∈ Finset.range c, left conj k (x t) * y t], none⟩ := by
  obtain ⟨sa, ra, la⟩ := ha.shape
  obtain ⟨sb, rb, lb⟩ := hb.shape
  obtain ⟨r, e, g1, g2⟩ := dot_rows_eq (n := 1) (lead := []) (x := fun _ => x) (out := ⟨[x 0], none⟩) conj k hk sa sb (by simp) hc hd
    (fun i hi t ht => by obtain rfl : i = 0 := by omega
                         exact hx t ht) hy rfl rfl rfl
  have h0 : a.data[o]? = some (x 0) := by simpa using hx 0 (by omega)
  have hr : r = [∑ t ∈ Finset.range c, left conj k (x t) * y t] := by
    have := g2 0 (by omega)
    match r, g1 with
    | [z], _ => simpa using this
  unfold dot alloc scalarAlloc
  rw [sb.dim, if_pos (show [(c : Int)].length = 1 from rfl), sa.offset, Outcome.bind_ok, load_at rfl h0, Outcome.bind_ok, sa.dim,
    if_neg (show ¬ [(d : Int)].length > 1 by simp), Outcome.bind_ok, e, hr]
  rfl

theorem left_eq (conj : α → α) {k : Kind} (hk : k = .float ∨ k = .double ∨ k = .cfloat) (x : α) :
    left conj k x = if k = .cfloat then conj x else x := by
  rcases hk with rfl | rfl | rfl <;> simp [left]

/-- C100: `dot(x, y)` of two vectors of the same length is the sum of the products of their elements, where the
    elements of a complex `x` are conjugated.
    Missing for the full claim: vectors of one element (`dot_one_diverges`), integers (`vector_kind_throws`), `cdouble` (`vector_cdouble_aborts`) and vectors of different
    lengths (`dot_shorter_truncates`, `dot_longer_overruns`). -/
theorem dot_vectors_partial [Ring α] (conj : α → α) (k : Kind) (hk : k = .float ∨ k = .double ∨ k = .cfloat) (a b : Arr α) (o p c : Nat)
    (ha : Shaped a o [(c : Int)]) (hb : Shaped b p [(c : Int)]) (hc : 1 < c) (x y : Nat → α) (hx : ∀ t, t < c → a.data[o + t]? = some (x t))
    (hy : ∀ t, t < c → b.data[p + t]? = some (y t)) (junk : List α) :
    dot conj k k junk a b = .ok ⟨[∑ t ∈ Finset.range c, (if k = .cfloat then conj (x t) else x t) * y t], none⟩ := by
  rw [dot_vectors_eq conj k hk a b o p c c ha hb hc (le_refl c) x y hx hy junk]
  simp only [left_eq conj hk]

def vec3 : Arr Int := ⟨[1, 2, 3], none⟩
example : Shaped vec3 0 [((3 : Nat) : Int)] ∧ dot id .double .double [] vec3 vec3 = .ok ⟨[14], none⟩ ∧
    dot (fun x => -x) .cfloat .cfloat [] vec3 vec3 = .ok ⟨[-14], none⟩ := ⟨.plain rfl (by decide), by decide⟩

/-- C100 for several dimensions: an array with last dimension 1 of the inner products of the rows with
    the vector.  Missing: as for `dot_vectors_partial`. -/
theorem dot_rows_partial [Ring α] (conj : α → α) (k : Kind) (hk : k = .float ∨ k = .double ∨ k = .cfloat) (a b : Arr α) (o p n c : Nat)
    (lead : List Int) (ha : Shaped a o (lead ++ [(c : Int)])) (hlead : ∀ d ∈ lead, 0 < d) (hne : lead ≠ []) (hn : lead.prod = n) (hb : Shaped b p [(c : Int)])
    (hc : 1 < c) (junk : List α) (hj : junk.length = n) (x : Nat → Nat → α) (y : Nat → α)
    (hx : ∀ i, i < n → ∀ t, t < c → a.data[o + c * i + t]? = some (x i t)) (hy : ∀ t, t < c → b.data[p + t]? = some (y t)) :
    ∃ out d, dot conj k k junk a b = .ok out ∧ NewArray out (lead ++ [1]) d ∧
      ∀ i, i < n → d[i]? = some (∑ t ∈ Finset.range c, (if k = .cfloat then conj (x i t) else x i t) * y t) := by
  obtain ⟨sa, ra, la⟩ := ha.shape
  obtain ⟨sb, rb, lb⟩ := hb.shape
  have hprod : (lead ++ [(1 : Int)]).prod = (n : Int) := by
    rw [List.prod_append, hn, List.prod_singleton]; simp
  have hpos : ∀ d ∈ lead ++ [(1 : Int)], 0 < d := by
    intro d hd
    rw [List.mem_append, List.mem_singleton] at hd
    rcases hd with h | rfl
    · exact hlead d h
    · omega
  have hn0 : 0 < n := by have := View.prod_pos hlead; omega
  have hnc : n ≤ n * c := Nat.le_mul_of_pos_right _ (by omega)
  have hp' : n * c + o ≤ a.data.length := by
    rw [List.prod_append, hn, List.prod_singleton] at ra
    exact_mod_cast ra
  obtain ⟨e1, hf, hnew⟩ := newView_eq (junk := junk) (by simp) hpos (by rw [hprod, hj]) (by rw [hprod]; exact lt_max (by omega))
  have so : HasShape (⟨junk, some (0 :: flat (lead ++ [(1 : Int)]))⟩ : Arr α) ((0 : Nat) : Int) (lead ++ [(1 : Int)]) := .view _ _ rfl hf (by simp)
  have hbs : blockStep (⟨junk, some (0 :: flat (lead ++ [(1 : Int)]))⟩ : Arr α) 1 = .ok ((1 : Nat) : Int) := by
    have := blockStep_eq so
    simpa using this
  obtain ⟨r, e, g1, g2⟩ := dot_rows_eq (x := x) (out := ⟨junk, some (0 :: flat (lead ++ [(1 : Int)]))⟩) conj k hk sa sb hn hc (le_refl c) hx hy so.offset hbs hj
  refine ⟨_, r, ?_, hnew r (by omega), fun i hi => ?_⟩
  · have h0 : a.data[o]? = some (x 0 0) := by simpa using hx 0 hn0 0 (by omega)
    have hlen : (lead ++ [(c : Int)]).length > 1 := by
      have := List.length_pos_iff.mpr hne
      simp only [List.length_append, List.length_singleton]; omega
    unfold dot alloc scalarAlloc
    rw [sb.dim, if_pos (show [(c : Int)].length = 1 from rfl), sa.offset, Outcome.bind_ok, load_at rfl h0, Outcome.bind_ok, sa.dim,
      if_pos hlen, show shapeLoop a 0 (lead ++ [(c : Int)]).length = .ok (lead ++ [(c : Int)]) from sa.shapeLoop [] _ rfl, Outcome.bind_ok,
      show ipSet (lead ++ [(c : Int)]) ((lead ++ [(c : Int)]).length - 1) 1 = .ok (lead ++ [(1 : Int)]) by
        rw [show (lead ++ [(c : Int)]).length - 1 = lead.length by simp]; unfold ipSet; rw [if_pos (by simp), set_length_append],
      Outcome.bind_ok, e1, Outcome.bind_ok, e]
    rfl
  · rw [g2 i hi]
    simp only [left_eq conj hk]

example : Shaped mat23 1 ([2] ++ [((3 : Nat) : Int)]) ∧ dot id .double .double [0, 0] mat23 vec3 = .ok ⟨[14, 32], some [0, 2, 1, 1, 1]⟩ :=
  ⟨.view 1 [2, 3] (by decide) (by decide), by decide⟩

/-- C100 fails for a second vector of one element: `dot` calls itself without end. -/
theorem dot_one_diverges [Ring α] (conj : α → α) (k k' : Kind) (a b : Arr α) (o p c : Nat) (ha : Shaped a o [(c : Int)]) (hb : Shaped b p [1]) (hc : 0 < c)
    (junk : List α) : dot conj k k' junk a b = .diverge := by
  obtain ⟨sa, ra, la⟩ := ha.shape
  obtain ⟨sb, rb, lb⟩ := hb.shape
  rw [List.prod_singleton] at ra
  obtain ⟨x, h0⟩ : ∃ x, a.data[o]? = some x := ⟨_, List.getElem?_eq_getElem (by omega)⟩
  unfold dot alloc scalarAlloc
  rw [sb.dim, if_pos (show [(1 : Int)].length = 1 from rfl), sa.offset, Outcome.bind_ok, load_at rfl h0, Outcome.bind_ok, sa.dim,
    if_neg (show ¬ [(c : Int)].length > 1 by simp), Outcome.bind_ok]
  unfold broadcast
  rw [sa.size, Outcome.bind_ok, sb.size, Outcome.bind_ok, sb.dim, List.prod_singleton, List.prod_singleton, if_pos ⟨rfl, rfl⟩, if_pos (by omega)]
  rfl

example : Shaped (⟨[5], none⟩ : Arr Int) 0 [1] ∧ dot id .double .double [] vec3 ⟨[5], none⟩ = .diverge := ⟨.plain rfl (by decide), by decide⟩

/-- C100 fails for a second vector that is shorter: the rest of the first is ignored without a
    complaint. -/
theorem dot_shorter_truncates [Ring α] (conj : α → α) (k : Kind) (hk : k = .float ∨ k = .double ∨ k = .cfloat) (a b : Arr α) (o p c d : Nat)
    (ha : Shaped a o [(d : Int)]) (hb : Shaped b p [(c : Int)]) (hc : 1 < c) (hd : c < d) (x y : Nat → α) (hx : ∀ t, t < d → a.data[o + t]? = some (x t))
    (hy : ∀ t, t < c → b.data[p + t]? = some (y t)) (junk : List α) :
    dot conj k k junk a b = .ok ⟨[∑ t ∈ Finset.range c, (if k = .cfloat then conj (x t) else x t) * y t], none⟩ := by
  rw [dot_vectors_eq conj k hk a b o p c d ha hb hc (by omega) x y hx hy junk]
  simp only [left_eq conj hk]

example : dot id .double .double [] vec3 ⟨[1, 1], none⟩ = .ok ⟨[3], none⟩ := by decide

/-- C100 fails for a second vector that is longer: the memory after the first is read. -/
theorem dot_longer_overruns : ∃ a b : Arr Int, Shaped a 0 [2] ∧ Shaped b 0 [3] ∧ dot id .double .double [] a b = .ub .outOfBounds :=
  ⟨⟨[1, 2], none⟩, vec3, .plain rfl (by decide), .plain rfl (by decide), by decide⟩

/-- C100 fails for `cdouble`: an assertion that the first operand is an array ends the program. -/
theorem vector_cdouble_aborts [Ring α] (conj : α → α) (a b : Arr α) (o p c d : Nat) (ha : Shaped a o [(d : Int)]) (hb : Shaped b p [(c : Int)])
    (hc : 1 < c) (hd : 0 < d) (junk : List α) : dot conj .cdouble .cdouble junk a b = .abort := by
  obtain ⟨sa, ra, la⟩ := ha.shape
  obtain ⟨sb, rb, lb⟩ := hb.shape
  rw [List.prod_singleton] at ra
  obtain ⟨x, h0⟩ : ∃ x, a.data[o]? = some x := ⟨_, List.getElem?_eq_getElem (by omega)⟩
  have hs' : HasShape a (o : Int) ([] ++ [(d : Int)]) := sa
  have hbi := blockStep_eq hs'
  simp only [List.length_singleton, List.prod_singleton] at hbi
  have ht := tdiv_blocks 1 d hd
  rw [show ((1 : Nat) : Int) * (d : Int) = d by simp] at ht
  unfold dot alloc scalarAlloc
  rw [sb.dim, if_pos (show [(c : Int)].length = 1 from rfl), sa.offset, Outcome.bind_ok, load_at rfl h0, Outcome.bind_ok, sa.dim,
    if_neg (show ¬ [(d : Int)].length > 1 by simp), Outcome.bind_ok]
  unfold broadcast
  rw [sa.size, Outcome.bind_ok, sb.size, Outcome.bind_ok, sb.dim, sa.dim, List.prod_singleton, List.prod_singleton, if_neg (by omega), if_neg (by simp), if_neg (by simp),
    List.length_singleton, hbi, Outcome.bind_ok, show blockStep (⟨[x], none⟩ : Arr α) 1 = .ok 1 from rfl, Outcome.bind_ok, if_neg (by omega), ht]
  rfl

example : Shaped vec3 0 [((3 : Nat) : Int)] ∧ dot id .cdouble .cdouble [] vec3 vec3 = .abort := ⟨.plain rfl (by decide), by decide⟩

/-- C100 fails for integers: an exception. -/
theorem vector_kind_throws : dot id .int .int [] vec3 vec3 = .thrown (.error "Dot::vector: Unknown type") := by decide

end Libube.Dot

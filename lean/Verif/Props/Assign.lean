import Verif.Spec.Assign
import Verif.Props.Arith

/-! # C180: the assigning operators compute what the others do -/

namespace Libube.Arith

open View Transpose ArithSpec

theorem isArr_elem {m : Mem α} {a : Ref} {o N : Nat} {sh : List Int} (h : IsArr m a o sh) (hN : sh.prod = N) (i : Nat) (hi : i < N) :
    ∃ z, At m a.heap (o + i) z := by
  obtain ⟨d, hd, _, _, _, l⟩ := h.shape
  have : o + i < d.length := by omega
  exact ⟨d[o + i], d, hd, List.getElem?_eq_getElem this⟩

theorem isArr_values {m : Mem α} {a : Ref} {o N : Nat} {sh : List Int} (h : IsArr m a o sh) (hN : sh.prod = N) :
    N = 0 ∨ ∃ x : Nat → α, ∀ i, i < N → At m a.heap (o + i) (x i) := by
  rcases Nat.eq_zero_or_pos N with h0 | h0
  · exact .inl h0
  · right
    obtain ⟨z0, _⟩ := isArr_elem h hN 0 h0
    have : ∀ i, ∃ z, i < N → At m a.heap (o + i) z := fun i => by
      by_cases hi : i < N
      · obtain ⟨z, hz⟩ := isArr_elem h hN i hi
        exact ⟨z, fun _ => hz⟩
      · exact ⟨z0, fun h => absurd h hi⟩
    exact ⟨fun i => (this i).choose, fun i => (this i).choose_spec⟩

theorem sameElems {m m1 n n1 : Mem α} {h h' p k : Nat} {v : Nat → α} (u : Updated m m1 h p k v) (u' : Updated n n1 h' p k v) :
    SameElems m1 h n1 h' p k := by
  intro i hi
  obtain ⟨_, _, D, _, hD, _, hv, _⟩ := u
  obtain ⟨_, _, D', _, hD', _, hv', _⟩ := u'
  exact ⟨v i, ⟨D, hD, hv i hi⟩, ⟨D', hD', hv' i hi⟩⟩

theorem updated_outside {m m' : Mem α} {h0 p n : Nat} {v : Nat → α} (u : Updated m m' h0 p n v) (h k : Nat)
    (hk : h ≠ h0 ∨ k < p ∨ p + n ≤ k) (z : α) : At m' h k z ↔ At m h k z := by
  obtain ⟨u1, D, D', hD, hD', _, _, u2⟩ := u
  by_cases e : h = h0
  · subst e
    have := u2 k (hk.resolve_left (fun h => h rfl))
    constructor
    · rintro ⟨E, e1, e2⟩
      cases hD'.symm.trans e1
      exact ⟨D, hD, this ▸ e2⟩
    · rintro ⟨E, e1, e2⟩
      cases hD.symm.trans e1
      exact ⟨D', hD', this ▸ e2⟩
  · unfold At
    rw [u1 h e]

/-- C180 for an array or a view, of any type but `cdouble`, and a number: `x op y` and `x op= y` give the same elements, the one in
    a new array, the other in x, and neither changes anything else.  `mul` exists for floats and doubles only. -/
theorem assign_number_partial (m : Mem α) (fn : Fn) (f : α → α → α) (re : α → α) (a : Ref) (o N : Nat) (sh : List Int) (ha : IsArr m a o sh)
    (hN : sh.prod = N) (hN0 : N ≠ 0) (hk : fn = .mul → a.kind = .float ∨ a.kind = .double) (hc : a.kind ≠ .cdouble) (junk A : List α)
    (hA : m[a.heap]? = some A) (hj : junk.length = A.length) (y : α) :
    ∃ r m1 m2, binOp fn f re a (.num y) junk m = .ok (r, m1) ∧ assignOp fn f re a (.num y) m = .ok m2 ∧
      SameElems m1 r.heap m2 a.heap o N ∧ m[r.heap]? = none ∧ (∀ (h : Nat) D, m[h]? = some D → m1[h]? = some D) ∧
      (∀ h k, h ≠ a.heap ∨ k < o ∨ o + N ≤ k → ∀ z, At m2 h k z ↔ At m h k z) := by
  obtain ⟨x, hx⟩ := (isArr_values ha hN).resolve_left hN0
  obtain ⟨m1, e1, u1⟩ := binop_number m fn f re a o N sh ha hN hk hc junk A hA hj x y hx
  obtain ⟨m2, e2, u2⟩ := arith_number m fn f re a o N sh ha hN hk hc x y hx
  refine ⟨_, m1, m2, e1, e2, sameElems u1 u2, by simp, fun h D hD => ?_, updated_outside u2⟩
  have hlt : h < m.length := (List.getElem?_eq_some_iff.1 hD).1
  rw [u1.1 h (by omega), List.getElem?_append_left hlt, hD]

example : IsArr mem3 matrix 0 ([2] ++ [3]) ∧ matrix.kind = .float ∧
    binOp .mul (· * ·) id matrix (.num 2) [0, 0, 0, 0, 0, 0] mem3 = .ok (⟨.float, 3, some [0, 2, 3, 3, 1]⟩, mem3 ++ [[2, 4, 6, 8, 10, 12]]) ∧
    assignOp .mul (· * ·) id matrix (.num 2) mem3 = .ok [[2, 4, 6, 8, 10, 12], [10, 20, 30], [7]] :=
  ⟨matrix_isArr, rfl, by decide, by decide⟩

/-- C180 for products of arrays of floats or doubles, where the trailing dimensions of `a` are those of `b` and these do not
    overlap unless they are the same. -/
theorem assign_product_partial (m : Mem α) (f : α → α → α) (re : α → α) (a b : Ref) (oa ob n s : Nat) (lead tail : List Int)
    (ha : IsArr m a oa (lead ++ tail)) (hb : IsArr m b ob tail) (hn : lead.prod = n) (hs : tail.prod = s) (hn0 : 0 < n) (hs0 : 0 < s)
    (hone : tail ≠ [1]) (hk : a.kind = b.kind) (hka : a.kind = .float ∨ a.kind = .double)
    (halias : a.heap ≠ b.heap ∨ ob + s ≤ oa ∨ oa + n * s ≤ ob ∨ (n = 1 ∧ oa = ob)) (junk A : List α)
    (hA : m[a.heap]? = some A) (hj : junk.length = A.length) :
    ∃ r m1 m2, binOp .mul f re a (.arr b) junk m = .ok (r, m1) ∧ assignOp .mul f re a (.arr b) m = .ok m2 ∧
      SameElems m1 r.heap m2 a.heap oa (n * s) ∧ m[r.heap]? = none ∧ (∀ (h : Nat) D, m[h]? = some D → m1[h]? = some D) ∧
      (∀ h k, h ≠ a.heap ∨ k < oa ∨ oa + n * s ≤ k → ∀ z, At m2 h k z ↔ At m h k z) := by
  have hp : (lead ++ tail).prod = ((n * s : Nat) : Int) := by rw [List.prod_append, hn, hs]; push_cast; rfl
  obtain ⟨x, hx⟩ := (isArr_values ha hp).resolve_left (Nat.mul_pos hn0 hs0).ne'
  obtain ⟨y, hy⟩ := (isArr_values hb hs).resolve_left hs0.ne'
  obtain ⟨m1, e1, u1⟩ := product_of_arrays_partial m f re a b oa ob n s lead tail ha hb hn hs hs0 hone hk hka junk A hA hj x y hx hy
  obtain ⟨m2, e2, u2⟩ := arith_arrays_partial m .mul f re a b oa ob n s lead tail ha hb hn hs hs0 hone hk hka halias x y hx hy
  refine ⟨_, m1, m2, e1, e2, sameElems u1 u2, by simp, fun h D hD => ?_, updated_outside u2⟩
  have hlt : h < m.length := (List.getElem?_eq_some_iff.1 hD).1
  rw [u1.1 h (by omega), List.getElem?_append_left hlt, hD]

example : IsArr mem3 matrix 0 ([2] ++ [3]) ∧ IsArr mem3 row 0 [3] ∧ matrix.kind = row.kind ∧ matrix.heap ≠ row.heap ∧
    assignOp .mul (· * ·) id matrix (.arr row) mem3 = .ok [[10, 40, 90, 40, 100, 180], [10, 20, 30], [7]] :=
  ⟨matrix_isArr, row_isArr, rfl, by decide, by decide⟩

/-- C180 fails for sums and differences of arrays: `x += y` adds, `x + y` stops at an assertion. -/
theorem assign_sum_differs (m : Mem α) (fn : Fn) (hfn : fn = .add ∨ fn = .sub) (f : α → α → α) (re : α → α) (a b : Ref) (oa ob n s : Nat)
    (lead tail : List Int) (ha : IsArr m a oa (lead ++ tail)) (hb : IsArr m b ob tail) (hn : lead.prod = n) (hs : tail.prod = s)
    (hn0 : 0 < n) (hs0 : 0 < s) (hone : tail ≠ [1]) (hk : a.kind = b.kind) (hka : a.kind = .float ∨ a.kind = .double)
    (halias : a.heap ≠ b.heap ∨ ob + s ≤ oa ∨ oa + n * s ≤ ob ∨ (n = 1 ∧ oa = ob)) (junk A : List α)
    (hA : m[a.heap]? = some A) (hj : junk.length = A.length) :
    binOp fn f re a (.arr b) junk m = .abort ∧ ∃ m', assignOp fn f re a (.arr b) m = .ok m' := by
  have hp : (lead ++ tail).prod = ((n * s : Nat) : Int) := by rw [List.prod_append, hn, hs]; push_cast; rfl
  obtain ⟨x, hx⟩ := (isArr_values ha hp).resolve_left (Nat.mul_pos hn0 hs0).ne'
  obtain ⟨y, hy⟩ := (isArr_values hb hs).resolve_left hs0.ne'
  refine ⟨sum_of_arrays_aborts m fn hfn f re a b oa ob n s lead tail ha hb hn hs hn0 hs0 hone hk
    (by rcases hka with h | h <;> rw [h] <;> decide) junk A hA hj, ?_⟩
  have hsup : Supported fn a.kind := by
    rcases hfn with rfl | rfl <;> rcases hka with h | h <;> rw [h]
    exacts [.inl rfl, .inr (.inl rfl), .inl rfl, .inr rfl]
  obtain ⟨m', e, _⟩ := arith_arrays_partial m fn f re a b oa ob n s lead tail ha hb hn hs hs0 hone hk hsup halias x y hx hy
  exact ⟨m', e⟩

/-- C180 fails for an element of x on the right: `x - x[2]` subtracts 3 from every element, `x -= x[2]` does so up to that element
    only. -/
theorem assign_element_differs :
    binOp .sub (· - ·) id flat6 (.elem 0 2) [0, 0, 0, 0, 0, 0] mem3 = .ok (⟨flat6.kind, 3, none⟩, mem3 ++ [[-2, -1, 0, 1, 2, 3]]) ∧
    assignOp .sub (· - ·) id flat6 (.elem 0 2) mem3 = .ok [[-2, -1, 0, 4, 5, 6], [10, 20, 30], [7]] := by decide

end Libube.Arith

#print axioms Libube.Arith.assign_number_partial
#print axioms Libube.Arith.assign_product_partial
#print axioms Libube.Arith.assign_sum_differs
#print axioms Libube.Arith.assign_element_differs

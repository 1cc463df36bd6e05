import Verif.Lemmas.Transpose

/-! # C56-C58: transposition -/

namespace Libube.Transpose

open View ViewSpec TransposeSpec

/-! ## The two algorithms on matrices stored by rows -/

/-- C56 for a matrix on its own: whatever was in the target, the result is the transpose. -/
theorem outOfPlace_transposes (R C : Nat) (xs dst : List α) (hx : xs.length = R * C)
    (hd : dst.length = C * R) :
    ∃ ys, outOfPlace xs 0 R C dst 0 = .ok ys ∧ IsTranspose R C xs ys := by
  obtain ⟨ys, e, h1, h2, _⟩ := outOfPlace_block (src := xs) (si := 0) (R := R) (C := C) (by omega) 0 dst (by omega)
  refine ⟨ys, e, hx, h1.trans hd, fun r c hr hc => ?_⟩
  have := h2 r c hr hc
  rwa [Nat.zero_add, Nat.zero_add] at this

example : [1, 2, 3, 4, 5, 6].length = 2 * 3 ∧ [0, 0, 0, 0, 0, 0].length = 3 * 2 ∧
    outOfPlace [1, 2, 3, 4, 5, 6] 0 2 3 [0, 0, 0, 0, 0, 0] 0 = .ok [1, 4, 2, 5, 3, 6] := by decide

/-- C57 for a matrix on its own: the in-place algorithm returns within as many rounds of each
    inner loop as there are elements, with the transpose. -/
theorem inPlace_transposes (R C : Nat) (xs : List α) (hx : xs.length = R * C) (fuel : Nat)
    (hf : R * C ≤ fuel) : ∃ ys, inPlace fuel xs 0 R C = .ok ys ∧ IsTranspose R C xs ys := by
  obtain ⟨ys, e, h1, h2, _⟩ := inPlace_block (m := R) (n := C) (b := 0) xs (by omega) fuel hf
  refine ⟨ys, e, hx, by rw [h1, hx, Nat.mul_comm], fun r c hr hc => ?_⟩
  have := h2 r c hr hc
  rwa [Nat.zero_add, Nat.zero_add] at this

example : [1, 2, 3, 4, 5, 6].length = 2 * 3 ∧ 2 * 3 ≤ 6 ∧
    inPlace 6 [1, 2, 3, 4, 5, 6] 0 2 3 = .ok [1, 4, 2, 5, 3, 6] := by decide

/-- C57: the same list either way. -/
theorem inPlace_eq_outOfPlace (R C : Nat) (xs dst : List α) (hx : xs.length = R * C)
    (hd : dst.length = C * R) (fuel : Nat) (hf : R * C ≤ fuel) :
    inPlace fuel xs 0 R C = outOfPlace xs 0 R C dst 0 := by
  obtain ⟨ys, e, h⟩ := inPlace_transposes R C xs hx fuel hf
  obtain ⟨zs, e', h'⟩ := outOfPlace_transposes R C xs dst hx hd
  rw [e, e', h.unique h']

example : inPlace 12 [0, 1, 2, 3, 4, 5, 6, 7, 8, 9, 10, 11] 0 3 4 = .ok [0, 4, 8, 1, 5, 9, 2, 6, 10, 3, 7, 11] := by decide

/-- C58: transposing in place, then transposing the result, gives back the matrix; and likewise
    out of place. -/
theorem twice_identity (R C : Nat) (xs dst dst' : List α) (hx : xs.length = R * C)
    (hd : dst.length = C * R) (hd' : dst'.length = R * C) (fuel : Nat) (hf : R * C ≤ fuel) :
    (∃ ys, inPlace fuel xs 0 R C = .ok ys ∧ inPlace fuel ys 0 C R = .ok xs) ∧
    (∃ ys, outOfPlace xs 0 R C dst 0 = .ok ys ∧ outOfPlace ys 0 C R dst' 0 = .ok xs) := by
  constructor
  · obtain ⟨ys, e, h⟩ := inPlace_transposes R C xs hx fuel hf
    obtain ⟨zs, e', h'⟩ := inPlace_transposes C R ys h.size_out fuel (by rw [Nat.mul_comm]; exact hf)
    exact ⟨ys, e, by rw [e', h.symm.unique h']⟩
  · obtain ⟨ys, e, h⟩ := outOfPlace_transposes R C xs dst hx hd
    obtain ⟨zs, e', h'⟩ := outOfPlace_transposes C R ys dst' h.size_out (by rw [hd'])
    exact ⟨ys, e, by rw [e', h.symm.unique h']⟩

example : [1, 2, 3].length = 1 * 3 ∧ [0, 0, 0].length = 3 * 1 ∧ 1 * 3 ≤ 3 := by decide

/-! ## Views -/

/-- C56 for views of any rank holding floats or doubles: `transpose(v)` returns a new array whose
    last two dimensions are swapped and which holds at `.., c, r` what `v` holds at `.., r, c`.
    Missing for the full claim: other element types (`other_types_throw`). -/
theorem transpose_view_partial (a : Arr α) (ha : (a.data.length : Int) < 2 ^ 31) (t : Kind) (ht : t = .float ∨ t = .double) (lead : List Int) (hlead : ∀ d ∈ lead, 0 < d)
    (R C : Nat) (hR : 0 < R) (hC : 0 < C) (off b : Int) (v : Arr α)
    (hv : view a (lead ++ [(R : Int), (C : Int)]) off = .ok v) (hb : offset a = .ok b) (h0 : 0 ≤ b + off)
    (junk : List α) (hj : (junk.length : Int) = (lead ++ [(R : Int), (C : Int)]).prod) :
    ∃ w, transposeNew t junk v = .ok w ∧
      shapeLoop w 0 (dim w) = .ok (lead ++ [(C : Int), (R : Int)]) ∧
      ∀ li, InRange lead li → ∀ r c : Nat, r < R → c < C →
        getAll w (li ++ [(c : Int), (r : Int)]) = getAll v (li ++ [(r : Int), (c : Int)]) := by
  obtain ⟨b', hb', hd, hs, hl, ho⟩ := view_shape hv
  cases hb.symm.trans hb'
  obtain ⟨o, ho'⟩ : ∃ o : Nat, b + off = o := ⟨(b + off).toNat, by omega⟩
  rw [ho'] at hs hl
  obtain ⟨n, hn, hn0⟩ := prod_nonneg_cast hlead
  have hprod : (lead ++ [(R : Int), (C : Int)]).prod = ((n * (R * C) : Nat) : Int) := by
    rw [List.prod_append, hn]; simp
  have hprod' : (lead ++ [(C : Int), (R : Int)]).prod = ((n * (R * C) : Nat) : Int) := by
    rw [List.prod_append, hn]; push_cast; simp [mul_comm]
  rw [hprod] at hl hj
  have hjl : junk.length = n * (R * C) := by omega
  have hbound : ((n * (R * C) : Nat) : Int) < 2 ^ 31 := by omega
  obtain ⟨d, e, g1, g2, hw⟩ := transposeNew_eq hn hlead hR hC hs (by rw [hd]; omega) hbound ht hjl
  refine ⟨⟨d, some (0 :: flat (lead ++ [(C : Int), (R : Int)]))⟩, e, ?_, ?_⟩
  · rw [hw.dim]
    exact hw.shapeLoop [] _ rfl
  · intro li hli r c hr hc
    rw [getAll_block (o := 0) hw (by rw [hprod']; exact (Int.add_zero _).trans_lt hbound) li hli c r hc hr,
      getAll_block hs (by rw [hprod]; omega) li hli r c hr hc]
    apply load_congr
    have hp := InRange.pos_range hli
    have := g2 (pos lead li).toNat (by omega) (c * R + r) (Nat.mul_comm C R ▸ lt_of hc hr)
    rw [prev_of hr] at this
    rw [Nat.zero_add, Nat.mul_comm C R, this]

/-- Two 2 by 3 matrices in a row, after one element that does not belong to them. -/
def two : Arr Nat := ⟨[9, 1, 2, 3, 4, 5, 6, 11, 12, 13, 14, 15, 16], none⟩
def twoView : Arr Nat := ⟨two.data, some [1, 2, 6, 2, 3, 3, 1]⟩

example : (two.data.length : Int) < 2 ^ 31 ∧ view two ([2] ++ [((2 : Nat) : Int), ((3 : Nat) : Int)]) 1 = .ok twoView ∧ offset two = .ok 0 ∧
    (transposeNew .float (List.replicate 12 0) twoView).bind (fun w => .ok w.data) =
      .ok [1, 4, 2, 5, 3, 6, 11, 14, 12, 15, 13, 16] := by decide

/-- C57 for views of any rank holding floats or doubles: `v.transpose()` swaps the last two dimensions of the view,
    holds at `.., c, r` what was at `.., r, c` and leaves the rest of the array alone.
    Missing for the full claim: other element types (`other_types_throw`). -/
theorem transpose_in_place_view_partial (a : Arr α) (ha : (a.data.length : Int) < 2 ^ 31) (t : Kind) (ht : t = .float ∨ t = .double) (lead : List Int) (hlead : ∀ d ∈ lead, 0 < d)
    (R C : Nat) (hR : 0 < R) (hC : 0 < C) (off b : Int) (v : Arr α)
    (hv : view a (lead ++ [(R : Int), (C : Int)]) off = .ok v) (hb : offset a = .ok b) (h0 : 0 ≤ b + off)
    (fuel : Nat) (hfuel : R * C ≤ fuel) :
    ∃ w, transposeInPlace t fuel v = .ok w ∧
      shapeLoop w 0 (dim w) = .ok (lead ++ [(C : Int), (R : Int)]) ∧ offset w = .ok (b + off) ∧
      w.data.length = a.data.length ∧
      (∀ li, InRange lead li → ∀ r c : Nat, r < R → c < C →
        getAll w (li ++ [(c : Int), (r : Int)]) = getAll v (li ++ [(r : Int), (c : Int)])) ∧
      (∀ k : Nat, (k : Int) < b + off ∨ b + off + (lead ++ [(R : Int), (C : Int)]).prod ≤ k →
        w.data[k]? = a.data[k]?) := by
  obtain ⟨b', hb', hd, hs, hl, ho⟩ := view_shape hv
  cases hb.symm.trans hb'
  obtain ⟨o, ho'⟩ : ∃ o : Nat, b + off = o := ⟨(b + off).toNat, by omega⟩
  rw [ho'] at hs hl ⊢
  obtain ⟨n, hn, hn0⟩ := prod_nonneg_cast hlead
  have hprod : (lead ++ [(R : Int), (C : Int)]).prod = ((n * (R * C) : Nat) : Int) := by
    rw [List.prod_append, hn]; simp
  have hprod' : (lead ++ [(C : Int), (R : Int)]).prod = ((n * (R * C) : Nat) : Int) := by
    rw [List.prod_append, hn]; push_cast; simp [mul_comm]
  rw [hprod] at hl
  have hpos : ∀ d ∈ lead ++ [(C : Int), (R : Int)], 0 < d := by
    intro d hd
    simp only [List.mem_append, List.mem_cons, List.not_mem_nil, or_false] at hd
    rcases hd with h | rfl | rfl
    · exact hlead d h
    · omega
    · omega
  have hbound : ((n * (R * C) : Nat) : Int) < 2 ^ 31 := by omega
  have hbound' : ((o + n * (R * C) : Nat) : Int) ≤ a.data.length := by push_cast at hl ⊢; omega
  obtain ⟨ip, hip⟩ := view_ip hv
  obtain ⟨d, e, g1, g2, g3⟩ := transposeInPlace_eq ht hn hn0 hR hC fuel hfuel hip hs (by rw [hd]; omega) hbound
  have hw : HasShape (⟨d, some (o :: flat (lead ++ [(C : Int), (R : Int)]))⟩ : Arr α) o (lead ++ [(C : Int), (R : Int)]) :=
    .view _ _ rfl (fits_of_pos hpos (by rw [hprod']; exact hbound)) (by simp)
  refine ⟨⟨d, some (o :: flat (lead ++ [(C : Int), (R : Int)]))⟩, e, ?_, hw.offset, by rw [← hd]; exact g1, ?_, ?_⟩
  · rw [hw.dim]
    exact hw.shapeLoop [] _ rfl
  · intro li hli r c hr hc
    rw [getAll_block hw (by rw [hprod']; omega) li hli c r hc hr,
      getAll_block hs (by rw [hprod]; omega) li hli r c hr hc]
    apply load_congr
    have hp := InRange.pos_range hli
    have := g2 (pos lead li).toNat (by omega) (c * R + r) (Nat.mul_comm C R ▸ lt_of hc hr)
    rw [prev_of hr] at this
    show d[_]? = _
    rw [Nat.mul_comm C R, this]
  · intro k hk
    rw [hprod] at hk
    rw [← hd]
    exact g3 k (by omega)

example : (two.data.length : Int) < 2 ^ 31 ∧ view two ([2] ++ [((2 : Nat) : Int), ((3 : Nat) : Int)]) 1 = .ok twoView ∧
    transposeInPlace .float 6 twoView =
      .ok ⟨[9, 1, 4, 2, 5, 3, 6, 11, 14, 12, 15, 13, 16], some [1, 2, 6, 3, 2, 2, 1]⟩ := by decide

/-- C57: the new array and the array changed in place hold the same element at every index.
    Missing for the full claim: other element types (`other_types_throw`). -/
theorem in_place_agrees_partial (a : Arr α) (ha : (a.data.length : Int) < 2 ^ 31) (t : Kind) (ht : t = .float ∨ t = .double) (lead : List Int) (hlead : ∀ d ∈ lead, 0 < d)
    (R C : Nat) (hR : 0 < R) (hC : 0 < C) (off b : Int) (v : Arr α)
    (hv : view a (lead ++ [(R : Int), (C : Int)]) off = .ok v) (hb : offset a = .ok b) (h0 : 0 ≤ b + off)
    (fuel : Nat) (hfuel : R * C ≤ fuel)
    (junk : List α) (hj : (junk.length : Int) = (lead ++ [(R : Int), (C : Int)]).prod) :
    ∃ w w', transposeNew t junk v = .ok w ∧ transposeInPlace t fuel v = .ok w' ∧
      shapeLoop w 0 (dim w) = shapeLoop w' 0 (dim w') ∧
      ∀ li, InRange lead li → ∀ r c : Nat, r < R → c < C →
        getAll w (li ++ [(c : Int), (r : Int)]) = getAll w' (li ++ [(c : Int), (r : Int)]) := by
  obtain ⟨w, e, s, g⟩ := transpose_view_partial a ha t ht lead hlead R C hR hC off b v hv hb h0 junk hj
  obtain ⟨w', e', s', _, _, g', _⟩ := transpose_in_place_view_partial a ha t ht lead hlead R C hR hC off b v hv hb h0 fuel hfuel
  exact ⟨w, w', e, e', by rw [s, s'], fun li hli r c hr hc => by rw [g li hli r c hr hc, g' li hli r c hr hc]⟩

example : view two ([2] ++ [((2 : Nat) : Int), ((3 : Nat) : Int)]) 1 = .ok twoView ∧
    ((List.replicate 12 0).length : Int) = ([2] ++ [((2 : Nat) : Int), ((3 : Nat) : Int)]).prod := by decide

/-- C58 for views: transposing in place twice restores the view and the whole array.
    Missing for the full claim: other element types (`other_types_throw`). -/
theorem in_place_twice_partial (a : Arr α) (ha : (a.data.length : Int) < 2 ^ 31) (t : Kind) (ht : t = .float ∨ t = .double) (lead : List Int) (hlead : ∀ d ∈ lead, 0 < d)
    (R C : Nat) (hR : 0 < R) (hC : 0 < C) (off b : Int) (v : Arr α)
    (hv : view a (lead ++ [(R : Int), (C : Int)]) off = .ok v) (hb : offset a = .ok b) (h0 : 0 ≤ b + off)
    (fuel : Nat) (hfuel : R * C ≤ fuel) :
    ∃ w, transposeInPlace t fuel v = .ok w ∧ transposeInPlace t fuel w = .ok v := by
  obtain ⟨b', hb', hd, hs, hl, ho⟩ := view_shape hv
  cases hb.symm.trans hb'
  obtain ⟨o, ho'⟩ : ∃ o : Nat, b + off = o := ⟨(b + off).toNat, by omega⟩
  rw [ho'] at hs hl
  obtain ⟨n, hn, hn0⟩ := prod_nonneg_cast hlead
  have hprod : (lead ++ [(R : Int), (C : Int)]).prod = ((n * (R * C) : Nat) : Int) := by
    rw [List.prod_append, hn]; simp
  have hprod' : (lead ++ [(C : Int), (R : Int)]).prod = ((n * (R * C) : Nat) : Int) := by
    rw [List.prod_append, hn]; push_cast; simp [mul_comm]
  rw [hprod] at hl
  have hpos : ∀ d ∈ lead ++ [(C : Int), (R : Int)], 0 < d := by
    intro d hd
    simp only [List.mem_append, List.mem_cons, List.not_mem_nil, or_false] at hd
    rcases hd with h | rfl | rfl
    · exact hlead d h
    · omega
    · omega
  have hbound : ((n * (R * C) : Nat) : Int) < 2 ^ 31 := by omega
  have hbound' : ((o + n * (R * C) : Nat) : Int) ≤ a.data.length := by push_cast at hl ⊢; omega
  obtain ⟨ip, hip⟩ := view_ip hv
  obtain ⟨d, e, g1, g2, g3⟩ := transposeInPlace_eq ht hn hn0 hR hC fuel hfuel hip hs (by rw [hd]; omega) hbound
  have hw : HasShape (⟨d, some (o :: flat (lead ++ [(C : Int), (R : Int)]))⟩ : Arr α) o (lead ++ [(C : Int), (R : Int)]) :=
    .view _ _ rfl (fits_of_pos hpos (by rw [hprod']; exact hbound)) (by simp)
  obtain ⟨d', e', g1', g2', g3'⟩ := transposeInPlace_eq ht hn hn0 hC hR fuel (by rw [Nat.mul_comm]; exact hfuel) rfl hw
    (by rw [Nat.mul_comm C R]; show _ ≤ d.length; rw [g1, hd]; omega) (by rw [Nat.mul_comm C R]; exact hbound)
  refine ⟨_, e, e'.trans ?_⟩
  have hv' : v = ⟨v.data, some (o :: flat (lead ++ [(R : Int), (C : Int)]))⟩ := by
    rw [← hs.ip hip]
  rw [hv']
  congr 2
  rw [Nat.mul_comm C R] at g2' g3'
  apply List.ext_getElem?
  intro p
  by_cases hp : p < o ∨ o + n * (R * C) ≤ p
  · exact (g3' p hp).trans (g3 p hp)
  · have hS : 0 < R * C := Nat.mul_pos hR hC
    have h1 := Nat.div_add_mod (p - o) (R * C)
    have h2 := Nat.mod_lt (p - o) hS
    have h3 : (p - o) / (R * C) < n := by
      rw [Nat.div_lt_iff_lt_mul hS]; omega
    obtain ⟨q1, q2, q3⟩ := split_of h2
    have e1 := g2' _ h3 _ h2
    have e2 := g2 _ h3 (prev C R ((p - o) % (R * C))) (by
      have h5 := lt_of q2 q1
      rw [Nat.mul_comm C R] at h5
      exact h5)
    have e3 : prev R C (prev C R ((p - o) % (R * C))) = (p - o) % (R * C) := by
      show prev R C (((p - o) % (R * C)) % C * R + ((p - o) % (R * C)) / C) = _
      rw [prev_of q1, q3]
    rw [e3] at e2
    have h4 : p = o + R * C * ((p - o) / (R * C)) + (p - o) % (R * C) := by omega
    have := e1.trans e2
    rwa [← h4] at this

example : transposeInPlace .float 6 twoView =
      .ok ⟨[9, 1, 4, 2, 5, 3, 6, 11, 14, 12, 15, 13, 16], some [1, 2, 6, 3, 2, 2, 1]⟩ ∧
    transposeInPlace .float 6 ⟨[9, 1, 4, 2, 5, 3, 6, 11, 14, 12, 15, 13, 16], some [1, 2, 6, 3, 2, 2, 1]⟩ = .ok twoView := by
  decide

/-- C56 to C58 fail for every other element type: integers, characters and complex numbers make
    both kinds of transposition throw. -/
theorem other_types_throw (a : Arr α) (ha : (a.data.length : Int) < 2 ^ 31) (t : Kind)
    (ht : ¬ (t = .float ∨ t = .double)) (lead : List Int) (hlead : ∀ d ∈ lead, 0 < d)
    (R C : Nat) (hR : 0 < R) (hC : 0 < C) (off b : Int) (v : Arr α)
    (hv : view a (lead ++ [(R : Int), (C : Int)]) off = .ok v) (hb : offset a = .ok b) (h0 : 0 ≤ b + off)
    (fuel : Nat) :
    transposeInPlace t fuel v = .thrown (.error "Transpose::vector(): unknown type") := by
  obtain ⟨b', hb', hd, hs, hl, ho⟩ := view_shape hv
  cases hb.symm.trans hb'
  obtain ⟨n, hn, hn0⟩ := prod_nonneg_cast hlead
  unfold transposeInPlace
  rw [vectorOf_other ht, broadcast_throws hn hn0 hR hC hs]
  rfl

example : transposeInPlace .int 6 twoView = .thrown (.error "Transpose::vector(): unknown type") ∧
    transposeNew .int (List.replicate 12 0) twoView = .thrown (.error "Transpose::vector(): unknown type") := by decide

/-- An array of one dimension cannot be transposed either way: both throw. -/
theorem one_dimension_throws (t : Kind) (xs : List α) (junk : List α) (fuel : Nat) :
    (∃ e, transposeNew t junk ⟨xs, none⟩ = .thrown e) ∧ (∃ e, transposeInPlace t fuel ⟨xs, none⟩ = .thrown e) := by
  constructor
  · exact ⟨.error "Transpose::alloc: dimension < 2", rfl⟩
  · exact ⟨_, rfl⟩

example : transposeNew .double [0] ⟨[1, 2, 3], none⟩ = .thrown (.error "Transpose::alloc: dimension < 2") := by decide

#print axioms in_place_agrees_partial
#print axioms in_place_twice_partial
#print axioms other_types_throw
#print axioms one_dimension_throws
#print axioms outOfPlace_transposes
#print axioms inPlace_transposes
#print axioms inPlace_eq_outOfPlace
#print axioms twice_identity
#print axioms transpose_view_partial
#print axioms transpose_in_place_view_partial

end Libube.Transpose

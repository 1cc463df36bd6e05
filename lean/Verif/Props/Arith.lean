import Verif.Lemmas.Arith

/-! # C55, C61-C64: array arithmetic -/

namespace Libube.Arith

open View Transpose ArithSpec

/-! A memory for the examples: a 2 by 3 matrix, a row of three, and a single element. -/

def mem3 : Mem Int := [[1, 2, 3, 4, 5, 6], [10, 20, 30], [7]]
def matrix : Ref := ⟨.float, 0, some [0, 2, 3, 3, 1]⟩
def flat6 : Ref := ⟨.float, 0, none⟩
def row : Ref := ⟨.float, 1, none⟩
def single : Ref := ⟨.float, 2, none⟩

theorem matrix_isArr : IsArr mem3 matrix 0 ([2] ++ [3]) :=
  .view [1, 2, 3, 4, 5, 6] rfl (by decide) 0 [2, 3] (by decide)
theorem row_isArr : IsArr mem3 row 0 [3] := .plain [10, 20, 30] rfl (by decide) rfl
theorem single_isArr : IsArr mem3 single 0 [1] := .plain [7] rfl (by decide) rfl
theorem flat6_isArr : IsArr mem3 flat6 0 [6] := .plain [1, 2, 3, 4, 5, 6] rfl (by decide) rfl

/-! ## C61 -/

/-- C61 for arrays of more than one element: if the trailing dimensions of `a` are those of `b`,
    `a op= b` makes element `i` of `a` into `a[i] op b[i mod size(b)]` and changes nothing else.  The
    operands may be views, and may share storage as long as they do not overlap, or are the same.
    Missing for the full claim: element types without the operation (`unsupported_throws`), right
    operands of one element (`one_element_undefined`), empty arrays (`empty_undefined`) and `cdouble` (`cdouble_first_only`). -/
theorem arith_arrays_partial (m : Mem α) (fn : Fn) (f : α → α → α) (re : α → α) (a b : Ref) (oa ob n s : Nat) (lead tail : List Int)
    (ha : IsArr m a oa (lead ++ tail)) (hb : IsArr m b ob tail) (hn : lead.prod = n) (hs : tail.prod = s)
    (hs0 : 0 < s) (hone : tail ≠ [1]) (hk : a.kind = b.kind) (hsup : Supported fn a.kind)
    (halias : a.heap ≠ b.heap ∨ ob + s ≤ oa ∨ oa + n * s ≤ ob ∨ (n = 1 ∧ oa = ob))
    (x y : Nat → α) (hx : ∀ i, i < n * s → At m a.heap (oa + i) (x i)) (hy : ∀ j, j < s → At m b.heap (ob + j) (y j)) :
    ∃ m', assignOp fn f re a (.arr b) m = .ok m' ∧
      Updated m m' a.heap oa (n * s) (fun i => f (x i) (y (i % s))) := by
  obtain ⟨dA, hA, _, sA, _, lA⟩ := ha.shape
  obtain ⟨dB, hB, _, sB, _, lB⟩ := hb.shape
  have hT : target fn a a = a := by unfold target; split <;> rfl
  have := broadcast_arr (f := f) (p := oa) hsup (fun _ => rfl) hA hB hA sA sB sA hs hn hs0 hone hk (by split <;> rfl)
    (x := x) (y := y)
    (fun i hi => ⟨hx i hi, Or.inr (Or.inr (by omega))⟩)
    (fun i hi => by
      have hm := Nat.mod_lt i hs0
      refine ⟨hy _ hm, ?_⟩
      rw [hT]
      rcases halias with h | h | h | ⟨h1, h2⟩
      · exact Or.inl (Ne.symm h)
      · exact Or.inr (Or.inl (by omega))
      · exact Or.inr (Or.inr (by omega))
      · rw [h1, Nat.one_mul] at hi
        rw [Nat.mod_eq_of_lt hi]
        exact Or.inr (Or.inr (by omega)))
    (fun i hi => ⟨x i, by rw [hT]; exact hx i hi⟩)
  rw [hT] at this
  rw [assignOp_eq (supported_kind hsup)]
  exact this

example : IsArr mem3 matrix 0 ([2] ++ [3]) ∧ IsArr mem3 row 0 [3] ∧ Supported .add matrix.kind ∧
    matrix.heap ≠ row.heap ∧ matrix.kind = row.kind ∧
    assignOp .add (· + ·) id matrix (.arr row) mem3 = .ok [[11, 22, 33, 14, 25, 36], [10, 20, 30], [7]] :=
  ⟨matrix_isArr, row_isArr, Or.inl rfl, by decide, rfl, by decide⟩

/-- C61, numbers on the right: every element is combined with the number.  `mul` exists for floats
    and doubles only, the others for all numeric types but `cdouble`. -/
theorem arith_number (m : Mem α) (fn : Fn) (f : α → α → α) (re : α → α) (a : Ref) (oa N : Nat) (sh : List Int)
    (ha : IsArr m a oa sh) (hN : sh.prod = N) (hk : fn = .mul → a.kind = .float ∨ a.kind = .double) (hc : a.kind ≠ .cdouble)
    (x : Nat → α) (y : α) (hx : ∀ i, i < N → At m a.heap (oa + i) (x i)) :
    ∃ m', assignOp fn f re a (.num y) m = .ok m' ∧ Updated m m' a.heap oa N (fun i => f (x i) y) := by
  obtain ⟨dA, hA, _, sA, _, lA⟩ := ha.shape
  rw [assignOp_eq hc]
  unfold broadcast
  by_cases hf : fn = .mul
  · subst hf
    exact scale_eq (hk rfl) hA hA sA sA hN (fun i hi => ⟨hx i hi, Or.inr (Or.inr (by omega))⟩) rfl
      (fun i hi => ⟨_, hx i hi⟩)
  · exact broadcastOne_eq (y := fun _ => y) hf hA hA sA sA hN (fun i hi => ⟨hx i hi, Or.inr (Or.inr (by omega))⟩)
      (fun _ _ _ _ => rfl) (fun i hi => ⟨_, hx i hi⟩)

example : assignOp .sub (· - ·) id matrix (.num 1) mem3 = .ok [[0, 1, 2, 3, 4, 5], [10, 20, 30], [7]] := by decide

/-- `x *= 2` throws for arrays of integers and of `cfloat`. -/
theorem scaling_throws (m : Mem α) (f : α → α → α) (re : α → α) (a : Ref) (oa : Nat) (sh : List Int)
    (ha : IsArr m a oa sh) (hk : ¬ (a.kind = .float ∨ a.kind = .double)) (hc : a.kind ≠ .cdouble) (y : α) :
    assignOp .mul f re a (.num y) m = .thrown (.error "Mul::scal: Unknown type") := by
  obtain ⟨dA, hA, eA, sA, _, lA⟩ := ha.shape
  rw [assignOp_eq hc]
  unfold broadcast broadcastOne scale
  simp only [if_true]
  rw [eA]
  simp only [Outcome.bind_ok]
  rw [sA.offset, sA.size]
  simp only [Outcome.bind_ok]
  cases h : a.kind <;> simp [h] at hk ⊢

example : assignOp .mul (· * ·) id { matrix with kind := .int } (.num 2) mem3 = .thrown (.error "Mul::scal: Unknown type") := by decide

theorem vectorNone_throws (n k : Nat) : ∃ e, vectorNone (α := α) n k = .thrown (.error e) := by
  unfold vectorNone
  split
  · exact ⟨_, rfl⟩
  · exact ⟨_, rfl⟩

/-- C61 fails: where the operation does not exist for pairs of arrays of the element type, as for
    integers, and for division of any type, it throws. -/
theorem unsupported_throws (m : Mem α) (fn : Fn) (f : α → α → α) (re : α → α) (a b : Ref) (oa ob n s : Nat) (lead tail : List Int)
    (ha : IsArr m a oa (lead ++ tail)) (hb : IsArr m b ob tail) (hn : lead.prod = n) (hs : tail.prod = s)
    (hn0 : 0 < n) (hs0 : 0 < s) (hone : tail ≠ [1]) (hk : a.kind = b.kind) (hsup : ¬ Supported fn a.kind)
    (hc : a.kind ≠ .cdouble) : ∃ e, assignOp fn f re a (.arr b) m = .thrown (.error e) := by
  obtain ⟨dA, hA, eA, sA, _, lA⟩ := ha.shape
  obtain ⟨dB, hB, eB, sB, _, lB⟩ := hb.shape
  have hv : ∀ offA offO, ∃ e, vector fn f a offA b a offO m = .thrown (.error e) := by
    intro offA offO
    unfold vector
    rw [eA, eB]
    simp only [Outcome.bind_ok]
    rw [sA.offset, sB.offset, sB.size]
    simp only [Outcome.bind_ok]
    cases fn with
    | div => exact vectorNone_throws _ _
    | _ => cases h : a.kind <;> simp [h, Supported] at hsup hc ⊢
  obtain ⟨e, he⟩ := hv ((s : Int) * (0 : Nat)) ((s : Int) * (0 : Nat))
  refine ⟨e, ?_⟩
  rw [assignOp_eq hc]
  unfold broadcast
  simp only []
  rw [eA, eB]
  simp only [Outcome.bind_ok]
  rw [sB.size]
  simp only [Outcome.bind_ok]
  have h1 : ¬ (dim (⟨dB, b.ip⟩ : Arr α) = 1 ∧ tail.prod = 1) := by
    rw [sB.dim]
    rintro ⟨e1, e2⟩
    match tail, e1, e2 with
    | [d], _, e2 => simp at e2; exact hone (by rw [e2])
  rw [if_neg h1, if_neg (by rw [sA.dim, sB.dim]; simp), if_neg (by simp [hk]), sB.dim, blockStep_eq sA, sA.size]
  simp only [Outcome.bind_ok]
  rw [if_neg (by rw [hs]; omega), List.prod_append, hn, hs, tdiv_blocks n s hs0]
  cases n with
  | zero => omega
  | succ n =>
    unfold blockLoop
    rw [he]
    rfl

example : ¬ Supported .add .int ∧ ¬ Supported .div .float ∧
    assignOp .add (· + ·) id { matrix with kind := .int } (.arr { row with kind := .int }) mem3 =
      .thrown (.error "Add::vector: Unknown type") := ⟨by simp [Supported], id, by decide⟩

/-- C61 and C62 fail: an array of one element on the right is converted to a number by reading its
    heap pointer as one. -/
theorem one_element_undefined (m : Mem α) (fn : Fn) (f : α → α → α) (re : α → α) (a b : Ref) (oa ob N : Nat) (sh : List Int)
    (ha : IsArr m a oa sh) (hb : IsArr m b ob [1]) (hN : sh.prod = N) (hN0 : 0 < N)
    (hk : fn = .mul → a.kind = .float ∨ a.kind = .double) (hc : a.kind ≠ .cdouble) :
    assignOp fn f re a (.arr b) m = .ub .typePun := by
  obtain ⟨dA, hA, eA, sA, _, lA⟩ := ha.shape
  obtain ⟨dB, hB, eB, sB, _, lB⟩ := hb.shape
  obtain ⟨z, hz⟩ := ha.at hN 0 hN0
  rw [assignOp_eq hc]
  unfold broadcast
  simp only []
  rw [eA, eB]
  simp only [Outcome.bind_ok]
  rw [sB.size]
  simp only [Outcome.bind_ok]
  rw [if_pos ⟨by rw [sB.dim]; rfl, by simp⟩]
  unfold broadcastOne
  by_cases hf : fn = .mul
  · rw [if_pos hf]
    unfold scale
    rw [eA]
    simp only [Outcome.bind_ok]
    rw [sA.offset, sA.size]
    simp only [Outcome.bind_ok]
    rcases hk hf with h | h <;> simp only [h] <;> rfl
  · rw [if_neg hf, eA]
    simp only [Outcome.bind_ok]
    rw [sA.offset, sA.size]
    simp only [Outcome.bind_ok]
    rw [hN, Int.toNat_natCast]
    cases N with
    | zero => omega
    | succ N =>
      unfold scalarLoop
      rw [show (oa : Int) + ((0 : Nat) : Int) = ((oa + 0 : Nat) : Int) by push_cast; rfl, loadAt_at hz]
      rfl

example : IsArr mem3 matrix 0 ([2] ++ [3]) ∧ IsArr mem3 single 0 [1] ∧ ([2] ++ [3] : List Int).prod = 6 ∧
    assignOp .add (· + ·) id matrix (.arr single) mem3 = .ub .typePun :=
  ⟨matrix_isArr, single_isArr, by decide, by decide⟩

/-- C61 and C62 fail: adding an empty array to an empty array divides by zero. -/
theorem empty_undefined (m : Mem α) (fn : Fn) (f : α → α → α) (re : α → α) (a b : Ref) (ha : m[a.heap]? = some []) (hia : a.ip = none)
    (hb : m[b.heap]? = some []) (hib : b.ip = none) (hk : a.kind = b.kind) (hc : a.kind ≠ .cdouble) :
    assignOp fn f re a (.arr b) m = .ub .divZero := by
  rw [assignOp_eq hc]
  unfold broadcast
  simp only []
  rw [arrOf_some ha, arrOf_some hb]
  simp only [Outcome.bind_ok, hia, hib, size, List.length_nil, dim]
  rw [if_neg (by simp), if_neg (by simp), if_neg (by simp [hk])]
  rfl

example : assignOp .add (· + ·) id ⟨.float, 0, none⟩ (.arr ⟨.float, 1, none⟩) ([[], []] : Mem Int) = .ub .divZero := by decide

/-! ## C62 -/

/-- C62 fails whenever the right operand is longer: elements behind the end of the left operand
    are accessed. -/
theorem longer_operand_overruns (m : Mem α) (fn : Fn) (f : α → α → α) (re : α → α) (a b : Ref) (A B : List α) (hA : m[a.heap]? = some A)
    (hB : m[b.heap]? = some B) (hia : a.ip = none) (hib : b.ip = none) (hab : a.heap ≠ b.heap)
    (hl : (B.length : Int) < 2 ^ 31) (h0 : 0 < A.length) (h1 : A.length < B.length) (hk : a.kind = b.kind)
    (hsup : Supported fn a.kind) : assignOp fn f re a (.arr b) m = .ub .outOfBounds := by
  have sA : HasShape (⟨A, a.ip⟩ : Arr α) ((0 : Nat) : Int) ([] ++ [(A.length : Int)]) := .plain hia (by show (A.length : Int) < _; omega)
  have sB : HasShape (⟨B, b.ip⟩ : Arr α) ((0 : Nat) : Int) [(B.length : Int)] := .plain hib hl
  rw [assignOp_eq (supported_kind hsup)]
  unfold broadcast
  simp only []
  rw [arrOf_some hA, arrOf_some hB]
  simp only [Outcome.bind_ok]
  rw [sB.size]
  simp only [Outcome.bind_ok]
  rw [if_neg (by rintro ⟨_, h⟩; simp at h; omega), if_neg (by rw [sA.dim, sB.dim]; simp), if_neg (by simp [hk]), sB.dim]
  have hbs : blockStep (⟨A, a.ip⟩ : Arr α) [(B.length : Int)].length = .ok (A.length : Int) := by
    have := blockStep_eq sA
    simp at this
    exact this
  rw [hbs, sA.size]
  simp only [Outcome.bind_ok]
  rw [if_neg (by omega)]
  have ht := tdiv_blocks 1 A.length h0
  rw [show ((1 : Nat) : Int) * (A.length : Int) = A.length by simp] at ht
  rw [show (([] : List Int) ++ [(A.length : Int)]).prod = (A.length : Int) by simp, ht]
  unfold blockLoop
  have hv := vector_eq (f := f) hsup (fun _ => rfl) (arrOf_some hA) (arrOf_some hB) (arrOf_some hA) sA sB sA
    ((A.length : Int) * (0 : Nat)) ((A.length : Int) * (0 : Nat))
  rw [hv]
  have hT : target fn a a = a := by unfold target; split <;> rfl
  rw [hT]
  obtain ⟨x0, hx0⟩ : ∃ x0, A[0]? = some x0 := ⟨_, List.getElem?_eq_getElem h0⟩
  rw [show [(B.length : Int)].prod.toNat = A.length + ((B.length - A.length - 1) + 1) by simp; omega, vecLoop_append]
  obtain ⟨m2, e2, u2⟩ := vecLoop_eq (f := f) (m := m) (x := fun i => A.getD i x0) (y := fun i => B.getD i x0) (ha := a.heap)
    (pa := 0) (hb := b.heap) (h := a.heap) (p := 0) (q := fun i => i) (N := A.length)
    (fun i hi => ⟨⟨A, hA, by simp [hi]⟩, Or.inr (Or.inr (by omega))⟩)
    (fun i hi => ⟨⟨B, hB, by rw [List.getElem?_eq_getElem (by omega)]; simp [show i < B.length by omega]⟩, Or.inl (Ne.symm hab)⟩)
    (fun i hi => ⟨_, A, hA, List.getElem?_eq_getElem (by omega)⟩) (base := 0) (pb := 0) A.length 0 m (by omega)
    (fun t _ _ => by simp) (Updated.zero hA _)
  have z1 : (((0 : Nat) : Int) + (A.length : Int) * ((0 : Nat) : Int)) = ((0 + 0 : Nat) : Int) := by simp
  rw [z1]
  simp only [ite_self]
  rw [e2]
  show Outcome.bind (Outcome.bind (Outcome.ok m2) _) _ = _
  simp only [Outcome.bind]
  have hb2 : m2[b.heap]? = some B := (u2.1 _ (Ne.symm hab)).trans hB
  obtain ⟨_, D, D', g1, g2, g3, _⟩ := u2
  cases g1.symm.trans hA
  unfold vecLoop
  rw [show (((0 : Nat) : Int) + ((0 + A.length : Nat) : Int)) = ((A.length : Nat) : Int) by simp,
    loadAt_at (m := m2) (h := b.heap) (p := A.length) (x := B[A.length]) ⟨B, hb2, List.getElem?_eq_getElem h1⟩]
  rw [loadAt_outside g2 (by omega)]
  rfl

example : assignOp .add (· + ·) id row (.arr flat6) mem3 = .ub .outOfBounds := by decide

/-- C62 in the other direction: a shorter right operand is combined with the first elements only, and
    nothing is reported.  Together with `arith_arrays_partial` this is the safe part of C62. -/
theorem shorter_operand_partial (m : Mem α) (fn : Fn) (f : α → α → α) (re : α → α) (a b : Ref) (A B : List α) (hA : m[a.heap]? = some A)
    (hB : m[b.heap]? = some B) (hia : a.ip = none) (hib : b.ip = none) (hab : a.heap ≠ b.heap)
    (hl : (A.length : Int) < 2 ^ 31) (h0 : 0 < A.length) (h1 : B.length ≤ A.length) (hone : B.length ≠ 1) (hk : a.kind = b.kind)
    (hsup : Supported fn a.kind) (x y : Nat → α) (hx : ∀ i, i < B.length → A[i]? = some (x i))
    (hy : ∀ i, i < B.length → B[i]? = some (y i)) :
    ∃ m', assignOp fn f re a (.arr b) m = .ok m' ∧ Updated m m' a.heap 0 B.length (fun i => f (x i) (y i)) := by
  have sA : HasShape (⟨A, a.ip⟩ : Arr α) ((0 : Nat) : Int) ([] ++ [(A.length : Int)]) := .plain hia hl
  have sB : HasShape (⟨B, b.ip⟩ : Arr α) ((0 : Nat) : Int) [(B.length : Int)] := .plain hib (by show (B.length : Int) < _; omega)
  obtain ⟨m2, e2, u2⟩ := vecLoop_eq (f := f) (m := m) (x := x) (y := y) (ha := a.heap)
    (pa := 0) (hb := b.heap) (h := a.heap) (p := 0) (q := fun i => i) (N := B.length)
    (fun i hi => ⟨⟨A, hA, by rw [Nat.zero_add]; exact hx i hi⟩, Or.inr (Or.inr (by omega))⟩)
    (fun i hi => ⟨⟨B, hB, hy i hi⟩, Or.inl (Ne.symm hab)⟩)
    (fun i hi => ⟨_, A, hA, List.getElem?_eq_getElem (by omega)⟩) (base := 0) (pb := 0) B.length 0 m (by omega)
    (fun t _ _ => by simp) (Updated.zero hA _)
  refine ⟨m2, ?_, by simpa using u2⟩
  rw [assignOp_eq (supported_kind hsup)]
  unfold broadcast
  simp only []
  rw [arrOf_some hA, arrOf_some hB]
  simp only [Outcome.bind_ok]
  rw [sB.size]
  simp only [Outcome.bind_ok]
  rw [if_neg (by rintro ⟨_, h⟩; simp at h; omega), if_neg (by rw [sA.dim, sB.dim]; simp), if_neg (by simp [hk]), sB.dim]
  have hbs : blockStep (⟨A, a.ip⟩ : Arr α) [(B.length : Int)].length = .ok (A.length : Int) := by
    have := blockStep_eq sA
    simp at this
    exact this
  rw [hbs, sA.size]
  simp only [Outcome.bind_ok]
  rw [if_neg (by omega)]
  have ht := tdiv_blocks 1 A.length h0
  rw [show ((1 : Nat) : Int) * (A.length : Int) = A.length by simp] at ht
  rw [show (([] : List Int) ++ [(A.length : Int)]).prod = (A.length : Int) by simp, ht]
  unfold blockLoop
  have hv := vector_eq (f := f) hsup (fun _ => rfl) (arrOf_some hA) (arrOf_some hB) (arrOf_some hA) sA sB sA
    ((A.length : Int) * (0 : Nat)) ((A.length : Int) * (0 : Nat))
  rw [hv]
  have hT : target fn a a = a := by unfold target; split <;> rfl
  rw [hT, show [(B.length : Int)].prod.toNat = B.length by simp]
  have z1 : (((0 : Nat) : Int) + (A.length : Int) * ((0 : Nat) : Int)) = ((0 + 0 : Nat) : Int) := by simp
  rw [z1]
  simp only [ite_self]
  rw [e2]
  rfl

example : assignOp .add (· + ·) id flat6 (.arr row) mem3 = .ok [[11, 22, 33, 4, 5, 6], [10, 20, 30], [7]] := by decide

/-! ## C63 -/

theorem isArr_append {m : Mem α} {a : Ref} {o : Nat} {sh : List Int} (h : IsArr m a o sh) (junk : List α) :
    IsArr (m ++ [junk]) a o sh := by
  have hlt := isArr_lt h
  cases h with
  | plain d hd hl hi => exact .plain d (by rw [List.getElem?_append_left hlt]; exact hd) hl hi
  | view d hd hl o sh hv => exact .view d (by rw [List.getElem?_append_left hlt]; exact hd) hl o sh hv

/-- C63 fails for all arrays but those of `cdouble`: `a + b` and `a - b` stop at an assertion. -/
theorem sum_of_arrays_aborts (m : Mem α) (fn : Fn) (hfn : fn = .add ∨ fn = .sub) (f : α → α → α) (re : α → α) (a b : Ref) (oa ob n s : Nat)
    (lead tail : List Int) (ha : IsArr m a oa (lead ++ tail)) (hb : IsArr m b ob tail) (hn : lead.prod = n)
    (hs : tail.prod = s) (hn0 : 0 < n) (hs0 : 0 < s) (hone : tail ≠ [1]) (hk : a.kind = b.kind) (hc : a.kind ≠ .cdouble) (junk A : List α)
    (hA : m[a.heap]? = some A) (hj : junk.length = A.length) :
    binOp fn f re a (.arr b) junk m = .abort := by
  obtain ⟨dA, hA', eA, sA, _, lA⟩ := (isArr_append ha junk).shape
  obtain ⟨dB, hB', eB, sB, _, lB⟩ := (isArr_append hb junk).shape
  have hlt := isArr_lt ha
  have hdA : dA = A := by
    rw [List.getElem?_append_left hlt] at hA'
    exact Option.some.inj (hA'.symm.trans hA)
  subst hdA
  have hO : (m ++ [junk])[m.length]? = some junk := by simp
  have eO : arrOf (m ++ [junk]) ⟨a.kind, m.length, a.ip⟩ = .ok ⟨junk, a.ip⟩ := arrOf_some (a := ⟨a.kind, m.length, a.ip⟩) hO
  have sO := HasShape_data sA hj
  rw [binOp_eq hc]
  unfold broadcast
  simp only []
  rw [eA, eB, eO]
  simp only [Outcome.bind_ok]
  rw [sB.size]
  simp only [Outcome.bind_ok]
  have h1 : ¬ (dim (⟨dB, b.ip⟩ : Arr α) = 1 ∧ tail.prod = 1) := by
    rw [sB.dim]
    rintro ⟨e1, e2⟩
    match tail, e1, e2 with
    | [d], _, e2 => simp at e2; exact hone (by rw [e2])
  rw [if_neg h1, if_neg (by rw [sA.dim, sB.dim]; simp), if_neg (by simp [hk]), sB.dim, blockStep_eq sA, blockStep_eq sO, sA.size]
  simp only [Outcome.bind_ok]
  rw [if_neg (by rw [hs]; omega), List.prod_append, hn, hs, tdiv_blocks n s hs0]
  have hne : a ≠ ⟨a.kind, m.length, a.ip⟩ := by
    intro h
    have := congrArg Ref.heap h
    simp at this
    omega
  cases n with
  | zero => omega
  | succ n =>
    unfold blockLoop vector
    rw [eA, eB, eO]
    simp only [Outcome.bind_ok]
    rw [sA.offset, sB.offset, sO.offset, sB.size]
    simp only [Outcome.bind_ok]
    rcases hfn with rfl | rfl <;> simp only [] <;> rw [if_pos hne] <;> rfl

example : binOp .add (· + ·) id matrix (.arr row) [0, 0, 0, 0, 0, 0] mem3 = .abort := by decide

/-- C63 holds for `a * b` on floats and doubles: the product is new storage of the same shape, and
    both operands keep their elements. -/
theorem product_of_arrays_partial (m : Mem α) (f : α → α → α) (re : α → α) (a b : Ref) (oa ob n s : Nat)
    (lead tail : List Int) (ha : IsArr m a oa (lead ++ tail)) (hb : IsArr m b ob tail) (hn : lead.prod = n)
    (hs : tail.prod = s) (hs0 : 0 < s) (hone : tail ≠ [1]) (hk : a.kind = b.kind)
    (hka : a.kind = .float ∨ a.kind = .double) (junk A : List α)
    (hA : m[a.heap]? = some A) (hj : junk.length = A.length)
    (x y : Nat → α) (hx : ∀ i, i < n * s → At m a.heap (oa + i) (x i)) (hy : ∀ j, j < s → At m b.heap (ob + j) (y j)) :
    ∃ m', binOp .mul f re a (.arr b) junk m = .ok (⟨a.kind, m.length, a.ip⟩, m') ∧
      Updated (m ++ [junk]) m' m.length oa (n * s) (fun i => f (x i) (y (i % s))) := by
  obtain ⟨dA, hA', eA, sA, _, lA⟩ := (isArr_append ha junk).shape
  obtain ⟨dB, hB', eB, sB, _, lB⟩ := (isArr_append hb junk).shape
  have hlt := isArr_lt ha
  have hltb := isArr_lt hb
  have hdA : dA = A := by
    rw [List.getElem?_append_left hlt] at hA'
    exact Option.some.inj (hA'.symm.trans hA)
  subst hdA
  have hO : (m ++ [junk])[(⟨a.kind, m.length, a.ip⟩ : Ref).heap]? = some junk := by simp
  have hlen : n * s + oa ≤ dA.length := by
    rw [List.prod_append, hn, hs] at lA
    push_cast at lA ⊢
    exact_mod_cast lA
  obtain ⟨m', e, u⟩ := broadcast_arr (fn := .mul) (f := f) (a := a) (o := ⟨a.kind, m.length, a.ip⟩) (p := oa) hka
    (fun h => by rcases h with h | h <;> cases h) hA' hB' hO sA sB (HasShape_data sA hj) hs hn hs0 hone hk rfl
    (x := x) (y := y)
    (fun i hi => ⟨at_append (hx i hi), Or.inl (by show a.heap ≠ m.length; omega)⟩)
    (fun i hi => ⟨at_append (hy _ (Nat.mod_lt i hs0)), Or.inl (by show b.heap ≠ m.length; omega)⟩)
    (fun i hi => ⟨_, junk, hO, List.getElem?_eq_getElem (by omega)⟩)
  refine ⟨m', ?_, u⟩
  rw [binOp_eq (by rcases hka with h | h <;> rw [h] <;> decide), e]
  rfl

example : binOp .mul (· * ·) id matrix (.arr row) [0, 0, 0, 0, 0, 0] mem3 =
    .ok (⟨.float, 3, some [0, 2, 3, 3, 1]⟩, mem3 ++ [[10, 40, 90, 40, 100, 180]]) := by decide

/-- C63 for numbers on the right, in all operations that exist, but for `cdouble`: the result is new and the operand is
    unchanged. -/
theorem binop_number (m : Mem α) (fn : Fn) (f : α → α → α) (re : α → α) (a : Ref) (oa N : Nat) (sh : List Int)
    (ha : IsArr m a oa sh) (hN : sh.prod = N) (hk : fn = .mul → a.kind = .float ∨ a.kind = .double) (hc : a.kind ≠ .cdouble)
    (junk A : List α) (hA : m[a.heap]? = some A) (hj : junk.length = A.length)
    (x : Nat → α) (y : α) (hx : ∀ i, i < N → At m a.heap (oa + i) (x i)) :
    ∃ m', binOp fn f re a (.num y) junk m = .ok (⟨a.kind, m.length, a.ip⟩, m') ∧
      Updated (m ++ [junk]) m' m.length oa N (fun i => f (x i) y) := by
  obtain ⟨dA, hA', eA, sA, _, lA⟩ := (isArr_append ha junk).shape
  have hlt := isArr_lt ha
  have hdA : dA = A := by
    rw [List.getElem?_append_left hlt] at hA'
    exact Option.some.inj (hA'.symm.trans hA)
  subst hdA
  have hO : (m ++ [junk])[(⟨a.kind, m.length, a.ip⟩ : Ref).heap]? = some junk := by simp
  have h1 : ∀ i, i < N → At (m ++ [junk]) a.heap (oa + i) (x i) ∧
      (a.heap ≠ (⟨a.kind, m.length, a.ip⟩ : Ref).heap ∨ oa + i < oa ∨ oa + i ≤ oa + i) :=
    fun i hi => ⟨at_append (hx i hi), Or.inr (Or.inr (by omega))⟩
  have h2 : ∀ i, i < N → ∃ z, At (m ++ [junk]) (⟨a.kind, m.length, a.ip⟩ : Ref).heap (oa + i) z :=
    fun i hi => ⟨_, junk, hO, List.getElem?_eq_getElem (by omega)⟩
  rw [binOp_eq hc]
  unfold broadcast
  simp only []
  by_cases hf : fn = .mul
  · subst hf
    obtain ⟨m', e, u⟩ := scale_eq (f := f) (o := ⟨a.kind, m.length, a.ip⟩) (r := .num y) (hk rfl) hA' hO sA (HasShape_data sA hj) hN h1 rfl h2
    exact ⟨m', by rw [e]; rfl, u⟩
  · obtain ⟨m', e, u⟩ := broadcastOne_eq (f := f) (o := ⟨a.kind, m.length, a.ip⟩) (r := .num y) (y := fun _ => y) hf hA' hO sA
      (HasShape_data sA hj) hN h1 (fun _ _ _ _ => rfl) h2
    exact ⟨m', by rw [e]; rfl, u⟩

example : binOp .sub (· - ·) id matrix (.num 1) [0, 0, 0, 0, 0, 0] mem3 =
    .ok (⟨.float, 3, some [0, 2, 3, 3, 1]⟩, mem3 ++ [[0, 1, 2, 3, 4, 5]]) := by decide

/-! ## C64 -/

/-- C64 fails: `x op= x[k]` uses the original value for the elements up to `k`, and the value
    `x[k] op x[k]` already stored there for all later ones.  Holds for all operations but `*=`. -/
theorem aliased_operand (m : Mem α) (fn : Fn) (hfn : fn ≠ .mul) (f : α → α → α) (re : α → α) (a : Ref) (oa N : Nat) (sh : List Int)
    (ha : IsArr m a oa sh) (hN : sh.prod = N) (x : Nat → α) (hx : ∀ i, i < N → At m a.heap (oa + i) (x i))
    (k : Nat) (hk : k < N) (hcd : a.kind ≠ .cdouble) :
    ∃ m', assignOp fn f re a (.elem a.heap (oa + k : Nat)) m = .ok m' ∧
      Updated m m' a.heap oa N (fun i => f (x i) (if i ≤ k then x k else f (x k) (x k))) := by
  obtain ⟨dA, hA, _, sA, _, lA⟩ := ha.shape
  rw [assignOp_eq hcd]
  refine broadcastOne_eq (f := f) (x := x) (y := fun i => if i ≤ k then x k else f (x k) (x k)) hfn hA hA sA sA hN
    (fun i hi => ⟨hx i hi, Or.inr (Or.inr (by omega))⟩) ?_ (fun i hi => ⟨_, hx i hi⟩)
  intro i hi m' u
  by_cases h : i ≤ k
  · rw [if_pos h]
    exact u.load (hx k hk) (Or.inr (Or.inr (by omega)))
  · rw [if_neg h]
    obtain ⟨_, D, D', g1, g2, g3, g4, g5⟩ := u
    refine loadAt_at ⟨D', g2, ?_⟩
    rw [g4 k (by omega)]
    simp

example : assignOp .sub (· - ·) id flat6 (.elem 0 ((0 + 2 : Nat) : Int)) mem3 = .ok [[-2, -1, 0, 4, 5, 6], [10, 20, 30], [7]] := by decide

/-- C64 for the last element, and for `*=` with any element: the original value is used throughout.
    Missing for the full claim: other elements with the other operations (`aliased_operand`). -/
theorem aliased_operand_partial (m : Mem α) (fn : Fn) (f : α → α → α) (re : α → α) (a : Ref) (oa N : Nat) (sh : List Int)
    (ha : IsArr m a oa sh) (hN : sh.prod = N) (x : Nat → α) (hx : ∀ i, i < N → At m a.heap (oa + i) (x i))
    (k : Nat) (hk : k < N) (hc : k + 1 = N ∨ (fn = .mul ∧ (a.kind = .float ∨ a.kind = .double)))
    (hm : fn = .mul → a.kind = .float ∨ a.kind = .double) (hcd : a.kind ≠ .cdouble) :
    ∃ m', assignOp fn f re a (.elem a.heap (oa + k : Nat)) m = .ok m' ∧
      Updated m m' a.heap oa N (fun i => f (x i) (x k)) := by
  by_cases hf : fn = .mul
  · subst hf
    obtain ⟨dA, hA, _, sA, _, lA⟩ := ha.shape
    rw [assignOp_eq hcd]
    exact scale_eq (hm rfl) hA hA sA sA hN (fun i hi => ⟨hx i hi, Or.inr (Or.inr (by omega))⟩)
      (loadAt_at (hx k hk)) (fun i hi => ⟨_, hx i hi⟩)
  · obtain ⟨m', e, u⟩ := aliased_operand m fn hf f re a oa N sh ha hN x hx k hk hcd
    refine ⟨m', e, u.1, ?_⟩
    obtain ⟨_, D, D', g1, g2, g3, g4, g5⟩ := u
    refine ⟨D, D', g1, g2, g3, fun i hi => ?_, g5⟩
    have hkN : k + 1 = N := by
      rcases hc with h | ⟨h, _⟩
      · exact h
      · exact absurd h hf
    rw [g4 i hi]
    simp only []
    rw [if_pos (by omega)]

example : assignOp .mul (· * ·) id flat6 (.elem 0 ((0 + 1 : Nat) : Int)) mem3 = .ok [[2, 4, 6, 8, 10, 12], [10, 20, 30], [7]] ∧
    assignOp .sub (· - ·) id flat6 (.elem 0 ((0 + 5 : Nat) : Int)) mem3 = .ok [[-5, -4, -3, -2, -1, 0], [10, 20, 30], [7]] := by decide

/-! ## C55 -/

theorem copyable_eq {m : Mem α} {v b : Ref} {ov ob : Nat} {sh sh' : List Int} (hv : IsArr m v ov sh) (hb : IsArr m b ob sh')
    (hk : v.kind = b.kind) (hd : sh.length = sh'.length) :
    copyable m v b = .ok (decide (if sh.length = 1 then sh.prod = sh'.prod else sh = sh')) := by
  obtain ⟨dV, hV, eV, sV, _, _⟩ := hv.shape
  obtain ⟨dB, hB, eB, sB, _, _⟩ := hb.shape
  unfold copyable
  rw [eV, eB]
  simp only [Outcome.bind_ok]
  rw [if_neg (by simp [hk]), if_neg (by rw [sV.dim, sB.dim]; simp [hd]), sV.dim]
  by_cases h : sh.length = 1
  · simp only [if_pos h]
    rw [sV.size, sB.size]
    rfl
  · simp only [if_neg h]
    have l1 : shapeLoop (⟨dV, v.ip⟩ : Arr α) 0 sh.length = .ok sh := sV.shapeLoop [] _ rfl
    have l2 : shapeLoop (⟨dB, b.ip⟩ : Arr α) 0 sh.length = .ok sh' := by rw [hd]; exact sB.shapeLoop [] _ rfl
    rw [l1, l2]
    rfl

/-- C55 for floats and doubles and more than one element: assigning an array of the same shape to a
    view replaces exactly the viewed elements.
    Missing for the full claim: other element types (`assign_int_view_throws`) and views of one
    element (`assign_one_element_undefined`). -/
theorem assign_view_partial (m : Mem α) (v b : Ref) (ov ob s : Nat) (sh : List Int) (hv : IsArr m v ov sh)
    (hb : IsArr m b ob sh) (hs : sh.prod = s) (hs0 : 0 < s) (hone : sh ≠ [1]) (hk : v.kind = b.kind)
    (hkv : v.kind = .float ∨ v.kind = .double) (halias : v.heap ≠ b.heap ∨ ob + s ≤ ov ∨ ov + s ≤ ob ∨ ov = ob)
    (y : Nat → α) (hy : ∀ j, j < s → At m b.heap (ob + j) (y j)) :
    ∃ m', assignView v b m = .ok (v, m') ∧ Updated m m' v.heap ov s y := by
  have hx : ∃ x : Nat → α, ∀ i, i < 1 * s → At m v.heap (ov + i) (x i) := by
    obtain ⟨z0, _⟩ := hv.at hs 0 hs0
    refine ⟨fun i => if h : i < s then (hv.at hs i h).choose else z0, fun i hi => ?_⟩
    rw [Nat.one_mul] at hi
    simp only [hi, dite_true]
    exact (hv.at hs i hi).choose_spec
  obtain ⟨x, hx⟩ := hx
  obtain ⟨m', e, u⟩ := arith_arrays_partial m .set (fun _ y => y) id v b ov ob 1 s [] sh hv hb rfl hs hs0 hone hk hkv
    (by rcases halias with h | h | h | h
        · exact Or.inl h
        · exact Or.inr (Or.inl h)
        · exact Or.inr (Or.inr (Or.inl (by omega)))
        · exact Or.inr (Or.inr (Or.inr ⟨rfl, h⟩))) x y hx hy
  refine ⟨m', ?_, ?_⟩
  · unfold assignView
    rw [copyable_eq hv hb hk rfl]
    simp only [Outcome.bind_ok, ite_self, decide_true, if_true]
    unfold assignOp at e
    rw [e]
    rfl
  · rw [Nat.one_mul] at u
    obtain ⟨u1, D, D', g1, g2, g3, g4, g5⟩ := u
    refine ⟨u1, D, D', g1, g2, g3, fun i hi => ?_, g5⟩
    rw [g4 i hi]
    simp only []
    rw [Nat.mod_eq_of_lt hi]

/-- Elements 1 to 3 of the matrix, as a view. -/
def middle : Ref := ⟨.float, 0, some [1, 3, 1]⟩
theorem middle_isArr : IsArr mem3 middle 1 [3] := .view [1, 2, 3, 4, 5, 6] rfl (by decide) 1 [3] (by decide)

example : IsArr mem3 middle 1 [3] ∧ IsArr mem3 row 0 [3] ∧
    assignView middle row mem3 = .ok (middle, [[1, 10, 20, 30, 5, 6], [10, 20, 30], [7]]) :=
  ⟨middle_isArr, row_isArr, by decide⟩

/-- C55 fails for integers and `cfloat`: the assignment throws. -/
theorem assign_int_view_throws (m : Mem α) (v b : Ref) (ov ob s : Nat) (sh : List Int) (hv : IsArr m v ov sh)
    (hb : IsArr m b ob sh) (hs : sh.prod = s) (hs0 : 0 < s) (hone : sh ≠ [1]) (hk : v.kind = b.kind)
    (hkv : ¬ (v.kind = .float ∨ v.kind = .double)) (hc : v.kind ≠ .cdouble) : ∃ e, assignView v b m = .thrown (.error e) := by
  obtain ⟨e, he⟩ := unsupported_throws m .set (fun _ y => y) id v b ov ob 1 s [] sh hv hb rfl hs (by omega) hs0 hone hk hkv hc
  refine ⟨e, ?_⟩
  unfold assignView
  rw [copyable_eq hv hb hk rfl]
  simp only [Outcome.bind_ok, ite_self, decide_true, if_true]
  unfold assignOp at he
  rw [he]
  rfl

example : assignView { middle with kind := .int } { row with kind := .int } mem3 =
    .thrown (.error "Set::vector: Unknown type") := by decide

/-- C55 fails for views of one element: the heap pointer of the source is read as a number. -/
theorem assign_one_element_undefined (m : Mem α) (v b : Ref) (ov ob : Nat) (hv : IsArr m v ov [1]) (hb : IsArr m b ob [1])
    (hk : v.kind = b.kind) (hc : v.kind ≠ .cdouble) : assignView v b m = .ub .typePun := by
  have he := one_element_undefined m .set (fun _ y => y) id v b ov ob 1 [1] hv hb (by simp) (by omega) (fun h => by cases h) hc
  unfold assignView
  rw [copyable_eq hv hb hk rfl]
  simp only [Outcome.bind_ok, ite_self, decide_true, if_true]
  unfold assignOp at he
  rw [he]
  rfl

example : assignView ⟨.float, 0, some [2, 1, 1]⟩ single mem3 = .ub .typePun := by decide

/-- Assigning an array of another shape does not write to the viewed array at all: the variable
    stops being a view of it. -/
theorem assign_other_shape (m : Mem α) (v b : Ref) (ov ob : Nat) (sh sh' : List Int) (hv : IsArr m v ov sh)
    (hb : IsArr m b ob sh') (hk : v.kind = b.kind) (hd : sh.length = sh'.length) (h2 : sh.length ≠ 1) (hne : sh ≠ sh') :
    assignView v b m = .ok (b, m) := by
  unfold assignView
  rw [copyable_eq hv hb hk hd]
  simp [h2, hne]

example : assignView matrix ⟨.float, 0, some [0, 3, 2, 2, 1]⟩ mem3 = .ok (⟨.float, 0, some [0, 3, 2, 2, 1]⟩, mem3) := by decide

/-! ## C81 -/

/-- C81 for vectors of equal length: their elements are exchanged, also when they are separate parts
    of one array, and nothing else changes.
    Missing for the full claim: more than one dimension (`swap_matrix_overruns`), integers
    (`swap_int_throws`) and `cdouble` (`swap_cdouble_aborts`). -/
theorem swap_vectors_partial (m : Mem α) (a b : Ref) (oa ob N : Nat) (ha : IsArr m a oa [(N : Int)])
    (hb : IsArr m b ob [(N : Int)]) (hk : a.kind = b.kind) (hkv : a.kind ≠ .int ∧ a.kind ≠ .long ∧ a.kind ≠ .cdouble)
    (hd : a.heap ≠ b.heap ∨ oa + N ≤ ob ∨ ob + N ≤ oa) :
    ∃ m', swap a b m = .ok m' ∧ Exchanged m m' a.heap oa b.heap ob N := by
  obtain ⟨dA, hA, eA, sA, _, _⟩ := ha.shape
  obtain ⟨dB, hB, eB, sB, _, _⟩ := hb.shape
  obtain ⟨m', e, u⟩ := swapLoop_eq hd (ha.at (N := N) (by simp)) (hb.at (N := N) (by simp)) N 0 m (by omega) (exchanged_zero m _ _ _ _)
  refine ⟨m', ?_, u⟩
  unfold swap
  rw [eA, eB]
  simp only [Outcome.bind_ok]
  rw [if_neg (by simp [hk]), sA.dim, sA.size, sA.offset, sB.offset]
  simp
  split
  · rename_i h; exact absurd h hkv.1
  · rename_i h; exact absurd h hkv.2.1
  · rename_i h; exact absurd h hkv.2.2
  · unfold swapBlocks
    simp [e]
    rfl

example : IsArr mem3 middle 1 [3] ∧ IsArr mem3 row 0 [3] ∧
    swap middle row mem3 = .ok [[1, 10, 20, 30, 5, 6], [2, 3, 4], [7]] ∧
    swap ⟨.float, 0, some [0, 3, 1]⟩ ⟨.float, 0, some [3, 3, 1]⟩ mem3 = .ok [[4, 5, 6, 1, 2, 3], [10, 20, 30], [7]] :=
  ⟨middle_isArr, row_isArr, by decide, by decide⟩

/-- C81 fails for every array of several rows whose storage ends with it: the elements behind it are
    accessed, since each row is swapped with the length of the whole array. -/
theorem swap_matrix_overruns (m : Mem α) (a b : Ref) (oa ob n c : Nat) (lead : List Int)
    (ha : IsArr m a oa (lead ++ [(c : Int)])) (hb : IsArr m b ob (lead ++ [(c : Int)])) (hn : lead.prod = n) (hn2 : 2 ≤ n)
    (hc : 0 < c) (hk : a.kind = b.kind) (hkv : a.kind ≠ .int ∧ a.kind ≠ .long ∧ a.kind ≠ .cdouble) (hd : a.heap ≠ b.heap) (A B : List α)
    (hA : m[a.heap]? = some A) (hB : m[b.heap]? = some B) (hlA : A.length = oa + n * c) (hlB : B.length = ob + n * c) :
    swap a b m = .ub .outOfBounds := by
  obtain ⟨dA, hA', eA, sA, _, _⟩ := ha.shape
  obtain ⟨dB, hB', eB, sB, _, _⟩ := hb.shape
  have hp : (lead ++ [(c : Int)]).prod = ((n * c : Nat) : Int) := by rw [List.prod_append, hn]; simp
  have hlead : lead ≠ [] := by
    rintro rfl
    simp at hn
    omega
  have hl0 : 0 < lead.length := List.length_pos_iff.mpr hlead
  have stA : stride (⟨dA, a.ip⟩ : Arr α) ((lead.length : Int) - 1) = .ok (c : Int) := by
    have := blockStep_eq sA
    unfold blockStep at this
    rw [sA.dim, if_pos (by simp; exact hl0)] at this
    simpa using this
  have stB : stride (⟨dB, b.ip⟩ : Arr α) ((lead.length : Int) - 1) = .ok (c : Int) := by
    have := blockStep_eq sB
    unfold blockStep at this
    rw [sB.dim, if_pos (by simp; exact hl0)] at this
    simpa using this
  have exA := ha.at hp
  have exB := hb.at hp
  obtain ⟨m1, e1, u1⟩ := swapLoop_eq (Or.inl hd) exA exB (n * c) 0 m (by omega) (exchanged_zero m _ _ _ _)
  have x1 := exchanged_exists u1 exA exB
  have hnc : c ≤ n * c := Nat.le_mul_of_pos_left _ (by omega)
  have inA : ∀ i, i < n * c - c → ∃ z, At m1 a.heap (oa + c + i) z := fun i hi =>
    (x1 _ _).mpr ((at_iff_length hA _).mpr (by omega))
  have inB : ∀ i, i < n * c - c → ∃ z, At m1 b.heap (ob + c + i) z := fun i hi =>
    (x1 _ _).mpr ((at_iff_length hB _).mpr (by omega))
  obtain ⟨m2, e2, u2⟩ := swapLoop_eq (Or.inl hd) inA inB (n * c - c) 0 m1 (by omega) (exchanged_zero m1 _ _ _ _)
  have x2 := exchanged_exists u2 inA inB
  have hnone : ¬ ∃ z, At m2 a.heap (oa + c + (n * c - c)) z := by
    rw [x2, x1, at_iff_length hA]
    omega
  have h2c : c < n * c := by
    calc c < 2 * c := by omega
      _ ≤ n * c := Nat.mul_le_mul_right c hn2
  obtain ⟨z0, D2, hD2, _⟩ := (x2 a.heap oa).mpr ((x1 _ _).mpr ((at_iff_length hA oa).mpr (by omega)))
  have e3 : swapLoop a.heap ((oa + c : Nat) : Int) b.heap ((ob + c : Nat) : Int) 0 (n * c) m1 = .ub .outOfBounds := by
    rw [show n * c = (n * c - c) + ((c - 1) + 1) by omega, swapLoop_append, e2]
    show swapLoop _ _ _ _ (0 + (n * c - c)) (c - 1 + 1) m2 = _
    unfold swapLoop
    rw [show (((oa + c : Nat) : Int) + ((0 + (n * c - c) : Nat) : Int)) = ((oa + c + (n * c - c) : Nat) : Int) by push_cast; simp,
      loadAt_none hD2 hnone]
    rfl
  unfold swap
  rw [eA, eB]
  simp only [Outcome.bind_ok]
  rw [if_neg (by simp [hk]), sA.dim]
  simp only [List.length_append, List.length_singleton, Nat.add_sub_cancel]
  have hl1 : lead.length > 0 := hl0
  simp only [if_pos hl1]
  rw [stA, stB, sA.size, sA.offset, sB.offset, hp]
  simp only [Outcome.bind_ok]
  rw [if_neg (by omega), show ((n * c : Nat) : Int) = (n : Int) * (c : Int) by push_cast; rfl, tdiv_blocks n c hc, if_neg (by omega)]
  split
  · rename_i h; exact absurd h hkv.1
  · rename_i h; exact absurd h hkv.2.1
  · rename_i h; exact absurd h hkv.2.2
  · obtain ⟨k, rfl⟩ : ∃ k, n = k + 2 := ⟨n - 2, by omega⟩
    unfold swapBlocks
    rw [show (oa : Int) + (c : Int) * ((0 : Nat) : Int) = (oa : Int) by simp,
      show (ob : Int) + (c : Int) * ((0 : Nat) : Int) = (ob : Int) by simp,
      show ((k + 2 : Nat) : Int) * (c : Int) = (((k + 2) * c : Nat) : Int) by push_cast; rfl, Int.toNat_natCast, e1]
    simp only [Outcome.bind_ok]
    unfold swapBlocks
    rw [show (oa : Int) + (c : Int) * ((0 + 1 : Nat) : Int) = ((oa + c : Nat) : Int) by push_cast; simp,
      show (ob : Int) + (c : Int) * ((0 + 1 : Nat) : Int) = ((ob + c : Nat) : Int) by push_cast; simp, e3]
    rfl

/-- Another two by three matrix. -/
def mem4 : Mem Int := [[1, 2, 3, 4, 5, 6], [10, 20, 30, 40, 50, 60]]
example : IsArr mem4 matrix 0 [2, 3] ∧ IsArr mem4 { matrix with heap := 1 } 0 [2, 3] ∧
    swap matrix { matrix with heap := 1 } mem4 = .ub .outOfBounds :=
  ⟨.view [1, 2, 3, 4, 5, 6] rfl (by decide) 0 [2, 3] (by decide),
   .view [10, 20, 30, 40, 50, 60] rfl (by decide) 0 [2, 3] (by decide), by decide⟩

/-- C81 fails for integers: swapping throws. -/
theorem swap_int_throws (m : Mem α) (a b : Ref) (oa ob N : Nat) (ha : IsArr m a oa [(N : Int)])
    (hb : IsArr m b ob [(N : Int)]) (hk : a.kind = b.kind) (hkv : a.kind = .int ∨ a.kind = .long) :
    swap a b m = .thrown (.error "Swap::vector: Unknown type") := by
  obtain ⟨dA, hA, eA, sA, _, _⟩ := ha.shape
  obtain ⟨dB, hB, eB, sB, _, _⟩ := hb.shape
  unfold swap
  rw [eA, eB]
  simp only [Outcome.bind_ok]
  rw [if_neg (by simp [hk]), sA.dim, sA.size, sA.offset, sB.offset]
  simp
  rcases hkv with h | h <;> rw [h]

example : swap { middle with kind := .int } { row with kind := .int } mem3 =
    .thrown (.error "Swap::vector: Unknown type") := by decide

/-- C81 fails for `cdouble`: an assertion fails. -/
theorem swap_cdouble_aborts (m : Mem α) (a b : Ref) (oa ob N : Nat) (ha : IsArr m a oa [(N : Int)])
    (hb : IsArr m b ob [(N : Int)]) (hk : a.kind = b.kind) (hkv : a.kind = .cdouble) : swap a b m = .abort := by
  obtain ⟨dA, hA, eA, sA, _, _⟩ := ha.shape
  obtain ⟨dB, hB, eB, sB, _, _⟩ := hb.shape
  unfold swap
  rw [eA, eB]
  simp only [Outcome.bind_ok]
  rw [if_neg (by simp [hk]), sA.dim, sA.size, sA.offset, sB.offset]
  simp
  rw [hkv]

example : swap { middle with kind := .cdouble } { row with kind := .cdouble } mem3 = .abort := by decide

/-! ## Arrays of `cdouble`: C55, C61, C63 -/

theorem onFirst_eq {m : Mem α} {f : α → α → α} {re : α → α} {a o : Ref} {oa oo : Nat} {shA shO : List Int} {dA dO : List α} {r : Rhs α} {x y z : α}
    (hA : m[a.heap]? = some dA) (hO : m[o.heap]? = some dO) (sA : HasShape (⟨dA, a.ip⟩ : Arr α) oa shA) (sO : HasShape (⟨dO, o.ip⟩ : Arr α) oo shO)
    (hx : At m a.heap oa x) (hy : rhsFirst re m r = .ok y) (hz : At m o.heap oo z) :
    ∃ m', onFirst f re a r o m = .ok m' ∧ Updated m m' o.heap oo 1 (fun _ => f x y) := by
  obtain ⟨m', e, u⟩ := (Updated.zero (p := oo) hO (fun _ => f x y)).store (x := z) hz
  refine ⟨m', ?_, u⟩
  unfold onFirst
  rw [arrOf_some hA, arrOf_some hO]
  simp only [Outcome.bind_ok]
  rw [sA.offset, sO.offset, Outcome.bind_ok, Outcome.bind_ok, loadAt_at hx, Outcome.bind_ok, hy, Outcome.bind_ok]
  exact e

theorem rhsFirst_arr {m : Mem α} {re : α → α} {b : Ref} {ob : Nat} {sh : List Int} {y : α} (hb : IsArr m b ob sh) (hk : b.kind = .cdouble)
    (hy : At m b.heap ob y) : rhsFirst re m (.arr b) = .ok y := by
  obtain ⟨dB, hB, eB, sB, _, _⟩ := hb.shape
  unfold rhsFirst
  simp only
  rw [if_pos hk, eB, Outcome.bind_ok, sB.offset, Outcome.bind_ok, loadAt_at hy]

/-- C61 fails for all arrays of `cdouble`, of any shapes: `a op= b` combines the first elements and leaves the others alone. -/
theorem cdouble_first_only (m : Mem α) (fn : Fn) (f : α → α → α) (re : α → α) (a b : Ref) (oa ob : Nat) (sh sh' : List Int) (ha : IsArr m a oa sh)
    (hb : IsArr m b ob sh') (hka : a.kind = .cdouble) (hkb : b.kind = .cdouble) (x y : α) (hx : At m a.heap oa x) (hy : At m b.heap ob y) :
    ∃ m', assignOp fn f re a (.arr b) m = .ok m' ∧ Updated m m' a.heap oa 1 (fun _ => f x y) := by
  obtain ⟨dA, hA, eA, sA, _, _⟩ := ha.shape
  unfold assignOp scalar
  rw [if_pos hka]
  exact onFirst_eq hA hA sA sA hx (rhsFirst_arr hb hkb hy) hx

/-- As `cdouble_first_only`, for a number on the right. -/
theorem cdouble_first_number (m : Mem α) (fn : Fn) (f : α → α → α) (re : α → α) (a : Ref) (oa : Nat) (sh : List Int) (ha : IsArr m a oa sh)
    (hka : a.kind = .cdouble) (x y : α) (hx : At m a.heap oa x) :
    ∃ m', assignOp fn f re a (.num y) m = .ok m' ∧ Updated m m' a.heap oa 1 (fun _ => f x y) := by
  obtain ⟨dA, hA, eA, sA, _, _⟩ := ha.shape
  unfold assignOp scalar
  rw [if_pos hka]
  exact onFirst_eq hA hA sA sA hx rfl hx

/-- As `cdouble_first_only`, for an element of an array on the right: of that only the real part is used. -/
theorem cdouble_first_elem (m : Mem α) (fn : Fn) (f : α → α → α) (re : α → α) (a : Ref) (oa h i : Nat) (sh : List Int) (ha : IsArr m a oa sh)
    (hka : a.kind = .cdouble) (x y : α) (hx : At m a.heap oa x) (hy : At m h i y) :
    ∃ m', assignOp fn f re a (.elem h i) m = .ok m' ∧ Updated m m' a.heap oa 1 (fun _ => f x (re y)) := by
  obtain ⟨dA, hA, eA, sA, _, _⟩ := ha.shape
  unfold assignOp scalar
  rw [if_pos hka]
  refine onFirst_eq hA hA sA sA hx ?_ hx
  unfold rhsFirst
  simp only
  rw [loadAt_at hy]
  rfl

-- the real part of pairs, here of a number: its half
example : assignOp .add (· + ·) (· / 2) { matrix with kind := .cdouble } (.elem 1 1) mem3 = .ok [[11, 2, 3, 4, 5, 6], [10, 20, 30], [7]] := by decide

/-- C63 fails for all arrays of `cdouble`: in the result of `a op b` the first element is set, and the others are what the memory held before. -/
theorem cdouble_result_unset (m : Mem α) (fn : Fn) (f : α → α → α) (re : α → α) (a b : Ref) (oa ob : Nat) (sh sh' : List Int) (ha : IsArr m a oa sh)
    (hb : IsArr m b ob sh') (hka : a.kind = .cdouble) (hkb : b.kind = .cdouble) (x y : α) (hx : At m a.heap oa x) (hy : At m b.heap ob y)
    (junk A : List α) (hA : m[a.heap]? = some A) (hj : junk.length = A.length) :
    ∃ m', binOp fn f re a (.arr b) junk m = .ok (⟨a.kind, m.length, a.ip⟩, m') ∧ Updated (m ++ [junk]) m' m.length oa 1 (fun _ => f x y) := by
  obtain ⟨dA, hA', eA, sA, _, lA⟩ := (isArr_append ha junk).shape
  have hlt := isArr_lt ha
  have hdA : dA = A := by
    rw [List.getElem?_append_left hlt] at hA'
    exact Option.some.inj (hA'.symm.trans hA)
  subst hdA
  have hO : (m ++ [junk])[(⟨a.kind, m.length, a.ip⟩ : Ref).heap]? = some junk := by simp
  have hl : oa < junk.length := by
    obtain ⟨D, h1, h2⟩ := hx
    cases h1.symm.trans hA
    rw [hj]
    exact (List.getElem?_eq_some_iff.1 h2).1
  obtain ⟨m', e, u⟩ := onFirst_eq (f := f) (re := re) (r := .arr b) (o := ⟨a.kind, m.length, a.ip⟩) hA' hO sA (HasShape_data sA hj) (at_append hx)
    (rhsFirst_arr (isArr_append hb junk) hkb (at_append hy)) ⟨junk, hO, List.getElem?_eq_getElem hl⟩
  refine ⟨m', ?_, u⟩
  unfold binOp allocLike scalar
  simp only
  rw [if_pos hka, e]
  rfl

/-- C55 fails for views of `cdouble` with more than one element: only the first is assigned. -/
theorem cdouble_view_first (m : Mem α) (v b : Ref) (ov ob : Nat) (sh : List Int) (hv : IsArr m v ov sh) (hb : IsArr m b ob sh) (hkv : v.kind = .cdouble)
    (hk : v.kind = b.kind) (x y : α) (hx : At m v.heap ov x) (hy : At m b.heap ob y) :
    ∃ m', assignView v b m = .ok (v, m') ∧ Updated m m' v.heap ov 1 (fun _ => y) := by
  obtain ⟨m', e, u⟩ := cdouble_first_only m .set (fun _ y => y) id v b ov ob sh sh hv hb hkv (hk ▸ hkv) x y hx hy
  refine ⟨m', ?_, u⟩
  unfold assignView
  rw [copyable_eq hv hb hk rfl]
  simp only [Outcome.bind_ok, ite_self, decide_true, if_true]
  unfold assignOp at e
  rw [e]
  rfl

example : IsArr mem3 { matrix with kind := .cdouble } 0 ([2] ++ [3]) ∧ IsArr mem3 { row with kind := .cdouble } 0 [3] ∧
    assignOp .add (· + ·) id { matrix with kind := .cdouble } (.arr { row with kind := .cdouble }) mem3 = .ok [[11, 2, 3, 4, 5, 6], [10, 20, 30], [7]] ∧
    binOp .add (· + ·) id { matrix with kind := .cdouble } (.arr { row with kind := .cdouble }) [91, 92, 93, 94, 95, 96] mem3 =
      .ok (⟨.cdouble, 3, matrix.ip⟩, mem3 ++ [[11, 92, 93, 94, 95, 96]]) ∧
    assignView { middle with kind := .cdouble } { row with kind := .cdouble } mem3 =
      .ok ({ middle with kind := .cdouble }, [[1, 10, 3, 4, 5, 6], [10, 20, 30], [7]]) :=
  ⟨.view [1, 2, 3, 4, 5, 6] rfl (by decide) 0 [2, 3] (by decide), .plain [10, 20, 30] rfl (by decide) rfl, by decide, by decide, by decide⟩

#print axioms cdouble_first_only
#print axioms cdouble_first_number
#print axioms cdouble_first_elem
#print axioms cdouble_result_unset
#print axioms cdouble_view_first
#print axioms swap_cdouble_aborts
#print axioms swap_vectors_partial
#print axioms swap_matrix_overruns
#print axioms swap_int_throws
#print axioms arith_arrays_partial
#print axioms arith_number
#print axioms scaling_throws
#print axioms unsupported_throws
#print axioms one_element_undefined
#print axioms empty_undefined
#print axioms longer_operand_overruns
#print axioms shorter_operand_partial
#print axioms sum_of_arrays_aborts
#print axioms product_of_arrays_partial
#print axioms binop_number
#print axioms aliased_operand
#print axioms aliased_operand_partial
#print axioms assign_view_partial
#print axioms assign_int_view_throws
#print axioms assign_one_element_undefined
#print axioms assign_other_shape

end Libube.Arith

import Verif.Model.Negate
import Verif.Spec.Negate
import Verif.Props.Arith

/-! # C176: unary minus of arrays -/

namespace Libube.Arith

open View Transpose ArithSpec

theorem extends_updated {m m' : Mem α} {junk : List α} {o n : Nat} {v : Nat → α}
    (u : Updated (m ++ [junk]) m' m.length o n v) : Extends m m' := by
  intro h D hD
  have hlt : h < m.length := (List.getElem?_eq_some_iff.1 hD).1
  rw [u.1 h (by omega), List.getElem?_append_left hlt, hD]

theorem view_other {d d' : List α} {ip : Option (List Int)} {o : Int} {sh : List Int} (hl : d'.length = d.length)
    (h : View.view ⟨d, none⟩ sh o = .ok ⟨d, ip⟩) : View.view ⟨d', none⟩ sh o = .ok ⟨d', ip⟩ := by
  have e : ∀ x : List α, View.view (⟨x, none⟩ : Arr α) sh o = (mkView x.length 0 sh o >>= fun ip => .ok ⟨x, some ip⟩) :=
    fun _ => rfl
  rw [e, hl]
  rw [e] at h
  generalize mkView d.length 0 sh o = q at h ⊢
  match q, h with
  | .ok jp, h =>
    have h2 := congrArg Arr.ip (Outcome.ok.inj h)
    exact congrArg Outcome.ok (congrArg (Arr.mk d') h2)

theorem isArr_other {m m' : Mem α} {a b : Ref} {o : Nat} {sh : List Int} (ha : IsArr m a o sh) (hip : b.ip = a.ip)
    (h : ∀ d, m[a.heap]? = some d → ∃ d', m'[b.heap]? = some d' ∧ d'.length = d.length) : IsArr m' b o sh := by
  cases ha with
  | plain d hd hl hi =>
    obtain ⟨d', hd', hl'⟩ := h d hd
    rw [← hl'] at hl ⊢
    exact .plain d' hd' hl (hip.trans hi)
  | view d hd hl o sh hv =>
    obtain ⟨d', hd', hl'⟩ := h d hd
    rw [← hl'] at hl
    exact .view d' hd' hl o sh (hip ▸ view_other hl' hv)

/-- C176 for arrays and views of floats and doubles: `-x` is a new array of the same type and shape that holds the
    negatives, and nothing that existed has changed.  Missing: the other types (`negate_throws`, `negate_cdouble`), and
    the sign of NaN, which the hypothesis on the multiplication leaves to it. -/
theorem negate_partial (mul : α → α → α) (re neg : α → α) (minus1 : α) (hneg : ∀ x, mul x minus1 = neg x) (m : Mem α) (a : Ref)
    (o n : Nat) (sh : List Int) (x : Nat → α) (ha : HoldsArr m a o sh n x) (hk : a.kind = .float ∨ a.kind = .double)
    (junk A : List α) (hA : m[a.heap]? = some A) (hj : junk.length = A.length) :
    ∃ b m', negate mul re minus1 a junk m = .ok (b, m') ∧ b.kind = a.kind ∧ m[b.heap]? = none ∧
      HoldsArr m' b o sh n (fun i => neg (x i)) ∧ Extends m m' := by
  obtain ⟨h1, h2, h3⟩ := ha
  obtain ⟨m', e, u⟩ := binop_number m .mul mul re a o n sh h1 h2 (fun _ => hk)
    (by rcases hk with h | h <;> rw [h] <;> decide) junk A hA hj x minus1 h3
  refine ⟨_, m', e, rfl, by simp, ⟨?_, h2, ?_⟩, extends_updated u⟩
  · refine isArr_other h1 rfl fun d hd => ?_
    obtain ⟨_, D, D', hD, hD', hl, _⟩ := u
    cases hA.symm.trans hd
    refine ⟨D', hD', ?_⟩
    simp at hD
    rw [hl, ← hD, hj]
  · intro i hi
    obtain ⟨_, D, D', hD, hD', hl, hv, _⟩ := u
    refine ⟨D', hD', (hv i hi).trans ?_⟩
    show some (mul (x i) minus1) = some (neg (x i))
    rw [hneg]

/-- Negating twice gives the elements back, in a third array. -/
theorem negate_twice_partial (mul : α → α → α) (re neg : α → α) (minus1 : α) (hneg : ∀ x, mul x minus1 = neg x)
    (hinv : ∀ x, neg (neg x) = x) (m : Mem α) (a : Ref) (o n : Nat) (sh : List Int) (x : Nat → α) (ha : HoldsArr m a o sh n x)
    (hk : a.kind = .float ∨ a.kind = .double) (junk junk' A : List α) (hA : m[a.heap]? = some A) (hj : junk.length = A.length)
    (hj' : junk'.length = A.length) :
    ∃ b m' c m'', negate mul re minus1 a junk m = .ok (b, m') ∧ negate mul re minus1 b junk' m' = .ok (c, m'') ∧
      c.heap ≠ b.heap ∧ c.heap ≠ a.heap ∧ HoldsArr m'' c o sh n x ∧ HoldsArr m'' a o sh n x := by
  obtain ⟨b, m', e, hbk, hbn, hb, hx⟩ := negate_partial mul re neg minus1 hneg m a o n sh x ha hk junk A hA hj
  have hB : ∃ B, m'[b.heap]? = some B ∧ B.length = A.length := by
    obtain ⟨h1, h2, h3⟩ := ha
    obtain ⟨m1, e1, u⟩ := binop_number m .mul mul re a o n sh h1 h2 (fun _ => hk)
      (by rcases hk with h | h <;> rw [h] <;> decide) junk A hA hj x minus1 h3
    have he := e.symm.trans e1
    cases he
    obtain ⟨_, D, D', hD, hD', hl, _⟩ := u
    simp at hD
    exact ⟨D', hD', by rw [hl, ← hD, hj]⟩
  obtain ⟨B, hB, hBl⟩ := hB
  obtain ⟨c, m'', e', hck, hcn, hc, hx'⟩ := negate_partial mul re neg minus1 hneg m' b o n sh _ hb (by rw [hbk]; exact hk) junk' B hB
    (by rw [hj', hBl])
  refine ⟨b, m', c, m'', e, e', ?_, ?_, ?_, ?_⟩
  · intro h; rw [h, hB] at hcn; cases hcn
  · intro h; rw [h, hx _ _ hA] at hcn; cases hcn
  · refine ⟨hc.1, hc.2.1, fun i hi => ?_⟩
    have h : At m'' c.heap (o + i) (neg (neg (x i))) := hc.2.2 i hi
    rwa [hinv] at h
  · refine ⟨isArr_other ha.1 rfl fun d hd => ⟨d, hx' _ _ (hx _ _ hd), rfl⟩, ha.2.1, fun i hi => ?_⟩
    obtain ⟨D, h1, h2⟩ := ha.2.2 i hi
    exact ⟨D, hx' _ _ (hx _ _ h1), h2⟩

example : HoldsArr mem3 matrix 0 [2, 3] 6 (fun i => (i : Int) + 1) ∧ mem3[matrix.heap]? = some [1, 2, 3, 4, 5, 6] ∧
    (∀ x : Int, x * -1 = -x) ∧ (∀ x : Int, - -x = x) ∧
    negate (· * ·) id (-1) matrix [0, 0, 0, 0, 0, 0] mem3 =
      .ok (⟨.float, 3, some [0, 2, 3, 3, 1]⟩, mem3 ++ [[-1, -2, -3, -4, -5, -6]]) := by
  refine ⟨⟨matrix_isArr, by decide, fun i hi => ⟨_, rfl, ?_⟩⟩, rfl, by intro x; omega, by intro x; omega, by decide⟩
  match i, hi with
  | 0, _ => rfl
  | 1, _ => rfl
  | 2, _ => rfl
  | 3, _ => rfl
  | 4, _ => rfl
  | 5, _ => rfl

/-- C176 fails for arrays of integers and of `cfloat`: `-x` throws. -/
theorem negate_throws (mul : α → α → α) (re : α → α) (minus1 : α) (m : Mem α) (a : Ref) (o : Nat) (sh : List Int) (ha : IsArr m a o sh)
    (hk : a.kind = .int ∨ a.kind = .long ∨ a.kind = .cfloat) (junk : List α) :
    negate mul re minus1 a junk m = .thrown (.error "Mul::scal: Unknown type") := by
  have hc : a.kind ≠ .cdouble := by rcases hk with h | h | h <;> rw [h] <;> decide
  obtain ⟨dA, hA, eA, sA, _, lA⟩ := (isArr_append ha junk).shape
  unfold negate
  rw [binOp_eq hc]
  unfold broadcast broadcastOne scale
  simp only [if_true]
  rw [eA]
  simp only [Outcome.bind_ok]
  have hO : (m ++ [junk])[m.length]? = some junk := by simp
  have eO : arrOf (m ++ [junk]) ⟨a.kind, m.length, a.ip⟩ = .ok ⟨junk, a.ip⟩ := by
    unfold arrOf heapOf; rw [hO]; rfl
  rw [eO]
  simp only [Outcome.bind_ok]
  rw [sA.offset, sA.size]
  have sO : View.offset (⟨junk, a.ip⟩ : Arr α) = View.offset (⟨dA, a.ip⟩ : Arr α) := rfl
  rw [sO, sA.offset]
  simp only [Outcome.bind_ok]
  rcases hk with h | h | h <;> rw [h] <;> rfl

example : IsArr mem3 { matrix with kind := .int } 0 [2, 3] := isArr_other (a := matrix) matrix_isArr rfl fun d hd => ⟨d, hd, rfl⟩

/-- C176 fails for arrays of `cdouble`: only the first element of the result is set. -/
theorem negate_cdouble (mul : α → α → α) (re : α → α) (minus1 : α) (m : Mem α) (a : Ref) (o : Nat) (sh : List Int) (ha : IsArr m a o sh)
    (hk : a.kind = .cdouble) (x : α) (hx : At m a.heap o x) (junk A : List α) (hA : m[a.heap]? = some A) (hj : junk.length = A.length) :
    ∃ m', negate mul re minus1 a junk m = .ok (⟨a.kind, m.length, a.ip⟩, m') ∧
      Updated (m ++ [junk]) m' m.length o 1 (fun _ => mul x minus1) := by
  obtain ⟨dA, hA', eA, sA, _, lA⟩ := (isArr_append ha junk).shape
  have hlt := isArr_lt ha
  have hdA : dA = A := by
    rw [List.getElem?_append_left hlt] at hA'
    exact Option.some.inj (hA'.symm.trans hA)
  subst hdA
  have hO : (m ++ [junk])[(⟨a.kind, m.length, a.ip⟩ : Ref).heap]? = some junk := by simp
  have hl : o < junk.length := by
    obtain ⟨D, h1, h2⟩ := hx
    cases h1.symm.trans hA
    rw [hj]
    exact (List.getElem?_eq_some_iff.1 h2).1
  obtain ⟨m', e, u⟩ := onFirst_eq (f := mul) (re := re) (r := .num minus1) (o := ⟨a.kind, m.length, a.ip⟩) hA' hO sA (HasShape_data sA hj)
    (at_append hx) rfl ⟨junk, hO, List.getElem?_eq_getElem hl⟩
  refine ⟨m', ?_, u⟩
  unfold negate binOp allocLike scalar
  simp only
  rw [if_pos hk, e]
  rfl

example : negate (· * ·) id (-1) { matrix with kind := .cdouble } [9, 9, 9, 9, 9, 9] mem3 =
    .ok (⟨.cdouble, 3, some [0, 2, 3, 3, 1]⟩, mem3 ++ [[-1, 9, 9, 9, 9, 9]]) := by decide

end Libube.Arith

#print axioms Libube.Arith.negate_partial
#print axioms Libube.Arith.negate_twice_partial
#print axioms Libube.Arith.negate_throws
#print axioms Libube.Arith.negate_cdouble

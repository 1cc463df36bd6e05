import Verif.Model.Pow
import Verif.Props.Arith

/-! # C136: `pow` of arrays -/

namespace Libube.PowProps

open View Transpose Arith ArithSpec Pow

theorem pow_eq {f : α → α → α} {re : α → α} {a : Ref} {r : Rhs α} {m : Mem α} (hc : a.kind ≠ .cdouble) :
    pow f re a r m = (powBroadcast f a r a m >>= fun m' => .ok (a, m')) := if_neg hc

theorem powNew_eq {f : α → α → α} {re : α → α} {a : Ref} {r : Rhs α} {junk : List α} {m : Mem α} (hc : a.kind ≠ .cdouble) :
    powNew f re a r junk m = (powBroadcast f a r ⟨a.kind, m.length, a.ip⟩ (m ++ [junk]) >>= fun m' => .ok (⟨a.kind, m.length, a.ip⟩, m')) := by
  unfold powNew allocLike Pow.scalar
  simp only
  rw [if_neg hc]

theorem powOne_eq {f : α → α → α} {a o : Ref} {r : Rhs α} {m : Mem α} (hk : a.kind = .float ∨ a.kind = .double ∨ a.kind = .cfloat) :
    powOne f a r o m = broadcastOne .add f a r o m := by
  unfold powOne broadcastOne
  rcases hk with h | h | h <;> rw [h] <;> rfl

theorem kind_ne {k : Num} (hk : k = .float ∨ k = .double ∨ k = .cfloat) : k ≠ .cdouble := by
  rcases hk with rfl | rfl | rfl <;> simp

/-- C136 in place, for a number as exponent: `x.pow(y)` raises every element of `x` to the power of `y`, and touches nothing else.
    Missing for the full claim: integers (`pow_int_throws`), `cdouble` (`pow_cdouble_lost`, `pow_cdouble_view`), an element of
    the array itself as exponent (`pow_aliased`) and arrays as exponents (`pow_array_throws`, `pow_single_undefined`). -/
theorem pow_number_partial (m : Mem α) (f : α → α → α) (re : α → α) (a : Ref) (oa N : Nat) (sh : List Int) (ha : IsArr m a oa sh) (hN : sh.prod = N)
    (hk : a.kind = .float ∨ a.kind = .double ∨ a.kind = .cfloat) (x : Nat → α) (y : α) (hx : ∀ i, i < N → At m a.heap (oa + i) (x i)) :
    ∃ m', pow f re a (.num y) m = .ok (a, m') ∧ Updated m m' a.heap oa N (fun i => f (x i) y) := by
  obtain ⟨m', e, u⟩ := arith_number m .add f re a oa N sh ha hN (fun h => by cases h) (kind_ne hk) x y hx
  refine ⟨m', ?_, u⟩
  rw [assignOp_eq (kind_ne hk)] at e
  rw [pow_eq (kind_ne hk)]
  unfold powBroadcast
  simp only
  rw [powOne_eq hk, show broadcastOne .add f a (.num y) a m = .ok m' from e]
  rfl

/-- Powers of integers, for the examples. -/
def ipow (x y : Int) : Int := x ^ y.toNat

example : IsArr mem3 matrix 0 ([2] ++ [3]) ∧ pow ipow id matrix (.num 2) mem3 = .ok (matrix, [[1, 4, 9, 16, 25, 36], [10, 20, 30], [7]]) :=
  ⟨matrix_isArr, by decide⟩

/-- C136 for a new array: `pow(x, y)` is an array of the same shape with the powers, and `x` is unchanged.  Missing: as for
    `pow_number_partial`. -/
theorem powNew_number_partial (m : Mem α) (f : α → α → α) (re : α → α) (a : Ref) (oa N : Nat) (sh : List Int) (ha : IsArr m a oa sh) (hN : sh.prod = N)
    (hk : a.kind = .float ∨ a.kind = .double ∨ a.kind = .cfloat) (junk A : List α) (hA : m[a.heap]? = some A) (hj : junk.length = A.length)
    (x : Nat → α) (y : α) (hx : ∀ i, i < N → At m a.heap (oa + i) (x i)) :
    ∃ m', powNew f re a (.num y) junk m = .ok (⟨a.kind, m.length, a.ip⟩, m') ∧ Updated (m ++ [junk]) m' m.length oa N (fun i => f (x i) y) := by
  obtain ⟨m', e, u⟩ := binop_number m .add f re a oa N sh ha hN (fun h => by cases h) (kind_ne hk) junk A hA hj x y hx
  refine ⟨m', ?_, u⟩
  rw [binOp_eq (kind_ne hk)] at e
  rw [powNew_eq (kind_ne hk)]
  unfold powBroadcast
  simp only
  rw [powOne_eq hk]
  exact e

example : powNew ipow id matrix (.num 2) [0, 0, 0, 0, 0, 0] mem3 = .ok (⟨.float, 3, some [0, 2, 3, 3, 1]⟩, mem3 ++ [[1, 4, 9, 16, 25, 36]]) := by decide

/-- C136 fails for integers: `pow` throws, before anything is changed. -/
theorem pow_int_throws (m : Mem α) (f : α → α → α) (re : α → α) (a : Ref) (oa N : Nat) (sh : List Int) (ha : IsArr m a oa sh) (hN : sh.prod = N) (hN0 : 0 < N)
    (hk : a.kind = .int ∨ a.kind = .long) (y : α) : pow f re a (.num y) m = .thrown (.error "Pow::scalar: Unknown type") := by
  obtain ⟨dA, hA, eA, sA, _, lA⟩ := ha.shape
  rw [pow_eq (by rcases hk with h | h <;> rw [h] <;> simp)]
  unfold powBroadcast powOne
  simp only
  rw [eA]
  simp only [Outcome.bind_ok]
  rw [sA.offset, sA.size]
  simp only [Outcome.bind_ok]
  rcases hk with h | h <;> rw [h] <;> simp only <;> rw [if_pos (by omega)] <;> rfl

example : pow ipow id { matrix with kind := .int } (.num 2) mem3 = .thrown (.error "Pow::scalar: Unknown type") := by decide

/-- C136 fails for arrays as exponents, whatever their shape: `pow` throws. -/
theorem pow_array_throws (m : Mem α) (f : α → α → α) (re : α → α) (a b : Ref) (oa ob : Nat) (sh sh' : List Int) (ha : IsArr m a oa sh) (hb : IsArr m b ob sh')
    (hpos : ∀ d ∈ sh, 0 < d) (hone : sh' ≠ [1]) (hc : a.kind ≠ .cdouble) : ∃ e, pow f re a (.arr b) m = .thrown (.error e) := by
  obtain ⟨dA, hA, eA, sA, _, lA⟩ := ha.shape
  obtain ⟨dB, hB, eB, sB, _, lB⟩ := hb.shape
  have h1 : ¬ (dim (⟨dB, b.ip⟩ : Arr α) = 1 ∧ sh'.prod = 1) := by
    rw [sB.dim]
    rintro ⟨e1, e2⟩
    match sh', e1, e2 with
    | [d], _, e2 => simp at e2; exact hone (by rw [e2])
  have start : pow f re a (.arr b) m = ((if dim (⟨dB, b.ip⟩ : Arr α) > dim (⟨dA, a.ip⟩ : Arr α) then .thrown (.error "var::broadcast: input dimension too large")
      else if a.kind ≠ b.kind then .thrown (.error "var::broadcast: types must match (for now)")
      else (blockStep (⟨dA, a.ip⟩ : Arr α) (dim (⟨dB, b.ip⟩ : Arr α))).bind fun stepA => (blockStep (⟨dA, a.ip⟩ : Arr α) (dim (⟨dB, b.ip⟩ : Arr α))).bind fun stepO =>
        (size (⟨dA, a.ip⟩ : Arr α)).bind fun sa => if stepA = 0 then .ub .divZero
          else blockLoop (fun _ _ _ => vectorNone (dim (⟨dA, a.ip⟩ : Arr α)) (dim (⟨dB, b.ip⟩ : Arr α))) stepA stepO 0 (sa.tdiv stepA).toNat m : Outcome (Mem α)).bind
      fun m' => .ok (a, m')) := by
    rw [pow_eq hc]
    unfold powBroadcast
    simp only
    rw [eA, eB]
    simp only [Outcome.bind_ok]
    rw [sB.size]
    simp only [Outcome.bind_ok]
    rw [if_neg h1]
    rfl
  rw [start]
  by_cases h2 : dim (⟨dB, b.ip⟩ : Arr α) > dim (⟨dA, a.ip⟩ : Arr α)
  · rw [if_pos h2]; exact ⟨_, rfl⟩
  rw [if_neg h2]
  by_cases h3 : a.kind ≠ b.kind
  · rw [if_pos h3]; exact ⟨_, rfl⟩
  rw [if_neg h3]
  rw [sA.dim, sB.dim] at h2 ⊢
  obtain ⟨lead, tail, rfl, ht⟩ : ∃ lead tail, sh = lead ++ tail ∧ tail.length = sh'.length :=
    ⟨sh.take (sh.length - sh'.length), sh.drop (sh.length - sh'.length), (List.take_append_drop _ _).symm, by rw [List.length_drop]; omega⟩
  have h4 := blockStep_eq sA
  rw [ht] at h4
  have p1 : 0 < tail.prod := View.prod_pos (fun d hd => hpos d (List.mem_append_right _ hd))
  have p2 : 0 < lead.prod := View.prod_pos (fun d hd => hpos d (List.mem_append_left _ hd))
  rw [h4, sA.size]
  show ∃ e, ((if tail.prod = 0 then .ub .divZero else _ : Outcome (Mem α)).bind _) = _
  rw [if_neg (by omega), List.prod_append, Int.mul_tdiv_cancel _ (by omega)]
  obtain ⟨n, hn⟩ : ∃ n, lead.prod.toNat = n + 1 := ⟨lead.prod.toNat - 1, by omega⟩
  rw [hn]
  unfold blockLoop
  obtain ⟨e, he⟩ := vectorNone_throws (α := α) (lead ++ tail).length sh'.length
  rw [he]
  exact ⟨e, rfl⟩

example : IsArr mem3 row 0 [3] ∧ pow ipow id row (.arr row) mem3 = .thrown (.error "BinaryFunctor: not a vector operation") ∧
    pow ipow id matrix (.arr row) mem3 = .thrown (.error "var::subview(): subview must have dim > 0") := ⟨row_isArr, by decide, by decide⟩

/-- C136 fails for an array of one element as exponent: its heap pointer is read as a number. -/
theorem pow_single_undefined (m : Mem α) (f : α → α → α) (re : α → α) (a b : Ref) (oa ob N : Nat) (sh : List Int) (ha : IsArr m a oa sh) (hb : IsArr m b ob [1])
    (hN : sh.prod = N) (hN0 : 0 < N) (hk : a.kind = .float ∨ a.kind = .double ∨ a.kind = .cfloat) : pow f re a (.arr b) m = .ub .typePun := by
  obtain ⟨dA, hA, eA, sA, _, lA⟩ := ha.shape
  obtain ⟨dB, hB, eB, sB, _, lB⟩ := hb.shape
  obtain ⟨z, hz⟩ := ha.at hN 0 hN0
  rw [pow_eq (kind_ne hk)]
  unfold powBroadcast
  simp only
  rw [eA, eB]
  simp only [Outcome.bind_ok]
  rw [sB.size]
  simp only [Outcome.bind_ok]
  rw [if_pos ⟨by rw [sB.dim]; rfl, by simp⟩, powOne_eq hk]
  unfold broadcastOne
  rw [if_neg (by simp), eA]
  simp only [Outcome.bind_ok]
  rw [sA.offset, sA.size]
  simp only [Outcome.bind_ok]
  rw [hN, Int.toNat_natCast]
  cases N with
  | zero => omega
  | succ N =>
    unfold scalarLoop
    rw [show (oa : Int) + ((0 : Nat) : Int) = ((oa + 0 : Nat) : Int) by push_cast; rfl, loadAt_at hz]
    rfl

example : IsArr mem3 single 0 [1] ∧ pow ipow id matrix (.arr single) mem3 = .ub .typePun := ⟨single_isArr, by decide⟩

/-- C136 fails for an element of the array itself as exponent: elements behind it are raised to the power of its new value. -/
theorem pow_aliased (m : Mem α) (f : α → α → α) (re : α → α) (a : Ref) (oa N : Nat) (sh : List Int) (ha : IsArr m a oa sh) (hN : sh.prod = N)
    (hk : a.kind = .float ∨ a.kind = .double ∨ a.kind = .cfloat) (x : Nat → α) (hx : ∀ i, i < N → At m a.heap (oa + i) (x i)) (k : Nat) (hkN : k < N) :
    ∃ m', pow f re a (.elem a.heap (oa + k : Nat)) m = .ok (a, m') ∧
      Updated m m' a.heap oa N (fun i => f (x i) (if i ≤ k then x k else f (x k) (x k))) := by
  obtain ⟨m', e, u⟩ := aliased_operand m .add (by simp) f re a oa N sh ha hN x hx k hkN (kind_ne hk)
  refine ⟨m', ?_, u⟩
  rw [assignOp_eq (kind_ne hk)] at e
  rw [pow_eq (kind_ne hk)]
  unfold powBroadcast
  simp only
  rw [powOne_eq hk, show broadcastOne .add f a (.elem a.heap (oa + k : Nat)) a m = .ok m' from e]
  rfl

example : pow ipow id row (.elem 1 ((0 + 0 : Nat) : Int)) [[], [2, 3, 5]] = .ok (row, [[], [4, 81, 625]]) := by decide

/-- C136 fails for an array of `cdouble`: `x.pow(y)` leaves its elements alone, and `x` becomes an array of one element, the power of the
    first. -/
theorem pow_cdouble_lost (m : Mem α) (f : α → α → α) (re : α → α) (a : Ref) (hi : a.ip = none) (hk : a.kind = .cdouble) (x y : α) (hx : At m a.heap 0 x) :
    pow f re a (.num y) m = .ok (⟨.cdouble, m.length, none⟩, m ++ [[f x y]]) := by
  obtain ⟨d, hd, hx'⟩ := id hx
  unfold pow Pow.scalar powFirst
  rw [if_pos hk, arrOf_some hd]
  simp only [Outcome.bind_ok]
  rw [show offset (⟨d, a.ip⟩ : Arr α) = .ok 0 by rw [hi]; rfl, Outcome.bind_ok, show loadAt m a.heap 0 = .ok x from loadAt_at (p := 0) hx, Outcome.bind_ok,
    show rhsFirst re m (.num y) = .ok y from rfl, Outcome.bind_ok, hi]

example : pow ipow id { row with kind := .cdouble } (.num 2) mem3 = .ok (⟨.cdouble, 3, none⟩, mem3 ++ [[100]]) := by decide

/-- The same for `pow(x, y)`: the result has one element whatever the size of `x`. -/
theorem powNew_cdouble_lost (m : Mem α) (f : α → α → α) (re : α → α) (a : Ref) (hi : a.ip = none) (hk : a.kind = .cdouble) (junk : List α) (x y : α)
    (hx : At m a.heap 0 x) : powNew f re a (.num y) junk m = .ok (⟨.cdouble, m.length + 1, none⟩, m ++ [junk] ++ [[f x y]]) := by
  obtain ⟨d, hd, hx'⟩ := at_append (junk := junk) hx
  unfold powNew allocLike Pow.scalar powFirst
  simp only
  rw [if_pos hk, arrOf_some hd]
  simp only [Outcome.bind_ok]
  rw [show offset (⟨d, a.ip⟩ : Arr α) = .ok 0 by rw [hi]; rfl, Outcome.bind_ok, show loadAt (m ++ [junk]) a.heap 0 = .ok x from loadAt_at (p := 0) (at_append hx), Outcome.bind_ok,
    show rhsFirst re (m ++ [junk]) (.num y) = .ok y from rfl, Outcome.bind_ok, hi]
  simp

example : powNew ipow id { row with kind := .cdouble } (.num 2) [0, 0, 0] mem3 = .ok (⟨.cdouble, 4, none⟩, mem3 ++ [[0, 0, 0], [100]]) := by decide

/-- The same for a view of `cdouble` with more than one element: it is no longer a view, and what it was a view of is unchanged. -/
theorem pow_cdouble_view (m : Mem α) (f : α → α → α) (re : α → α) (a : Ref) (oa N : Nat) (sh : List Int) (ha : IsArr m a oa sh) (hN : sh.prod = N) (hN1 : 1 < N)
    (hi : a.ip ≠ none) (hk : a.kind = .cdouble) (x y : α) (hx : At m a.heap oa x) :
    pow f re a (.num y) m = .ok (⟨.cdouble, m.length, none⟩, m ++ [[f x y]]) := by
  obtain ⟨dA, hA, eA, sA, _, lA⟩ := ha.shape
  obtain ⟨ip, hip⟩ := Option.ne_none_iff_exists'.1 hi
  have hm : (m ++ [[f x y]])[(⟨.cdouble, m.length, none⟩ : Ref).heap]? = some [f x y] := by simp
  have hb : IsArr (m ++ [[f x y]]) ⟨.cdouble, m.length, none⟩ 0 [1] := .plain [f x y] hm (by show ((1 : Nat) : Int) < _; decide) rfl
  have hv : assignView a ⟨.cdouble, m.length, none⟩ (m ++ [[f x y]]) = .ok (⟨.cdouble, m.length, none⟩, m ++ [[f x y]]) := by
    have ha' := isArr_append ha [f x y]
    unfold assignView
    by_cases hd : sh.length = 1
    · rw [copyable_eq ha' hb hk (by rw [hd]; rfl)]
      simp only [Outcome.bind_ok, hd, if_true, hN]
      rw [if_neg (by simp; omega)]
    · obtain ⟨dV, hV, eV, sV, _, _⟩ := ha'.shape
      obtain ⟨dB, hB, eB, sB, _, _⟩ := hb.shape
      unfold copyable
      rw [eV, eB]
      simp only [Outcome.bind_ok]
      rw [if_neg (by simp [hk]), if_pos (by rw [sV.dim, sB.dim]; exact hd)]
      rfl
  unfold pow Pow.scalar powFirst
  rw [if_pos hk, eA]
  simp only [Outcome.bind_ok]
  rw [sA.offset, Outcome.bind_ok, loadAt_at hx, Outcome.bind_ok, show rhsFirst re m (.num y) = .ok y from rfl, Outcome.bind_ok, hip]
  exact hv

example : IsArr mem3 { matrix with kind := .cdouble } 0 ([2] ++ [3]) ∧
    pow ipow id { matrix with kind := .cdouble } (.num 2) mem3 = .ok (⟨.cdouble, 3, none⟩, mem3 ++ [[1]]) :=
  ⟨.view [1, 2, 3, 4, 5, 6] rfl (by decide) 0 [2, 3] (by decide), by decide⟩

#print axioms pow_number_partial
#print axioms powNew_number_partial
#print axioms pow_int_throws
#print axioms pow_array_throws
#print axioms pow_single_undefined
#print axioms pow_aliased
#print axioms pow_cdouble_lost
#print axioms powNew_cdouble_lost
#print axioms pow_cdouble_view

end Libube.PowProps

import Verif.Model.Ctor
import Verif.Props.Cast
import Verif.Props.ViewElem

/-! # C140, C141: constructors of arrays -/

namespace Libube.Ctor

open View ViewSpec ViewElem CString

/-! ## Lists -/

theorem push_array {a : List Val} {x : Val} : push (.arr a) x = .ok (.arr (a ++ [x])) := rfl

theorem pushAll_arr (a xs : List Val) : pushAll (.arr a) xs = .ok (.arr (a ++ xs)) := by
  induction xs generalizing a with
  | nil => simp [pushAll]
  | cons x xs ih => rw [pushAll, push_array, Outcome.bind_ok, ih]; simp

/-- C141: a list that begins with an array, a string or nil becomes the array of its elements. -/
theorem list_array_first (x : Val) (h : x.type = 0) (xs : List Val) : ofList (x :: xs) = .ok (.arr (x :: xs)) := by
  show (push .nil x >>= fun r => pushAll r xs) = _
  have : push .nil x = .ok (.arr [x]) := by
    show (if x.type ≠ 0 then Outcome.ok x else .ok (.arr [x])) = _
    rw [if_neg (by simpa using h)]
  rw [this, Outcome.bind_ok, pushAll_arr]; rfl

example : (Val.chars [97]).type = 0 := rfl

/-- Pushing a number to an array of its type. -/
theorem push_same {v x : Val} {k : Kind} (hv : heapKind v = some k) (hx : scalarKind x.type = some k) :
    ∃ v', push v x = .ok v' ∧ heapKind v' = some k ∧ v'.elems = v.elems ++ [x] := by
  cases v <;> simp only [heapKind, Option.some.injEq, reduceCtorEq] at hv <;> subst hv <;> cases x <;> simp only [Val.type, scalarKind, Option.some.injEq, reduceCtorEq] at hx
  · rename_i s c
    refine ⟨_, congrArg (fun o : Outcome UInt8 => o >>= fun y => Outcome.ok (Val.chars (s ++ [y]))) (CastProps.same_type c 0 0 0 0 0 0).1, rfl, by simp [Val.elems]⟩
  · rename_i s c
    refine ⟨_, congrArg (fun o : Outcome (BitVec 32) => o >>= fun y => Outcome.ok (Val.ints (s ++ [y]))) (CastProps.same_type 0 c 0 0 0 0 0).2.1, rfl, by simp [Val.elems]⟩
  · rename_i s c
    refine ⟨_, congrArg (fun o : Outcome (BitVec 64) => o >>= fun y => Outcome.ok (Val.longs (s ++ [y]))) (CastProps.same_type 0 0 c 0 0 0 0).2.2.1, rfl, by simp [Val.elems]⟩
  · exact ⟨_, rfl, rfl, by simp [Val.elems]⟩
  · exact ⟨_, rfl, rfl, by simp [Val.elems]⟩
  · exact ⟨_, rfl, rfl, by simp [Val.elems]⟩

theorem pushAll_same {v : Val} {k : Kind} (hv : heapKind v = some k) (xs : List Val) (hx : ∀ x ∈ xs, scalarKind x.type = some k) :
    ∃ v', pushAll v xs = .ok v' ∧ heapKind v' = some k ∧ v'.elems = v.elems ++ xs := by
  induction xs generalizing v with
  | nil => exact ⟨v, rfl, hv, by simp⟩
  | cons x xs ih =>
    obtain ⟨v1, a1, a2, a3⟩ := push_same hv (hx x (by simp))
    obtain ⟨v2, b1, b2, b3⟩ := ih a2 (fun y hy => hx y (by simp [hy]))
    exact ⟨v2, by rw [pushAll, a1, Outcome.bind_ok, b1], b2, by rw [b3, a3]; simp⟩

theorem push_two {x y : Val} {k : Kind} (hx : scalarKind x.type = some k) (hy : scalarKind y.type = some k) :
    ∃ v, push x y = .ok v ∧ heapKind v = some k ∧ v.elems = [x, y] := by
  cases x <;> simp only [Val.type, scalarKind, Option.some.injEq, reduceCtorEq] at hx <;> subst hx <;> cases y <;>
    simp only [Val.type, scalarKind, Option.some.injEq, reduceCtorEq] at hy <;> exact ⟨_, rfl, rfl, rfl⟩

theorem push_nil_number {x : Val} {k : Kind} (hx : scalarKind x.type = some k) : push .nil x = .ok x := by
  show (if x.type ≠ 0 then Outcome.ok x else .ok (.arr [x])) = _
  rw [if_pos]
  intro h; rw [h] at hx; cases hx

/-- C141: a list of at least two numbers of the same type becomes the array of them. -/
theorem list_numbers_partial {x y : Val} {xs : List Val} {k : Kind} (h : ∀ z ∈ x :: y :: xs, scalarKind z.type = some k) :
    ∃ v, ofList (x :: y :: xs) = .ok v ∧ heapKind v = some k ∧ v.elems = x :: y :: xs := by
  obtain ⟨v, a1, a2, a3⟩ := push_two (h x (by simp)) (h y (by simp))
  obtain ⟨v', b1, b2, b3⟩ := pushAll_same a2 xs (fun z hz => h z (by simp [hz]))
  refine ⟨v', ?_, b2, by rw [b3, a3]; rfl⟩
  show (push .nil x >>= fun r => push r y >>= fun r => pushAll r xs) = _
  rw [push_nil_number (h x (by simp)), Outcome.bind_ok, a1, Outcome.bind_ok, b1]

example : ∀ z ∈ [Val.int 1, .int 2, .int 3], scalarKind z.type = some .int := by
  intro z hz
  simp only [List.mem_cons, List.not_mem_nil, or_false] at hz
  rcases hz with rfl | rfl | rfl <;> rfl

/-- C141: a list of one number is that number and no array, the empty list is nil. -/
theorem list_one {x : Val} {k : Kind} (h : scalarKind x.type = some k) : ofList [x] = .ok x ∧ ofList [] = .ok .nil := by
  refine ⟨?_, rfl⟩
  show (push .nil x >>= fun r => pushAll r []) = _
  rw [push_nil_number h]; rfl

/-- C141: a list whose first two elements are numbers of different types, or a number and something else, throws. -/
theorem list_mixed {x y : Val} {k : Kind} (h : scalarKind x.type = some k) (hy : scalarKind y.type ≠ some k) (xs : List Val) :
    ofList (x :: y :: xs) = .thrown (.error "push(): Incompatible types") := by
  have : push x y = .thrown (.error "push(): Incompatible types") := by
    cases x <;> simp only [Val.type, scalarKind, Option.some.injEq, reduceCtorEq] at h <;> subst h <;> cases y <;> first | rfl | exact absurd rfl hy
  show (push .nil x >>= fun r => push r y >>= fun r => pushAll r xs) = _
  rw [push_nil_number h, Outcome.bind_ok, this]; rfl

example : scalarKind (Val.int 1).type = some .int ∧ scalarKind (Val.float 0).type ≠ some .int := by decide

/-- C141: from the third element on numbers of another type are converted: {1, 2, 3.5} is {1, 2, 3}. -/
theorem list_converted : ofList [.int 1, .int 2, .double 0x400C000000000000] = .ok (.ints [1, 2, 3]) := by
  have h : castInt (.double 0x400C000000000000) = .ok 3 := by decide +kernel
  have hp : ∀ s x, push (.ints s) x = (castInt x >>= fun y => .ok (.ints (s ++ [y]))) := fun _ _ => rfl
  unfold ofList
  rw [pushAll, show push .nil (.int 1) = .ok (.int 1) from rfl, Outcome.bind_ok, pushAll, show push (.int 1) (.int 2) = .ok (.ints [1, 2]) from rfl,
    Outcome.bind_ok, pushAll, hp, h]
  rfl

/-- C141: an array of at least one C string becomes the array of the strings; of none, nil. -/
theorem strings (data : List Bytes) (n : Nat) (h : n ≤ data.length) :
    ofStrings n data = .ok (if n = 0 then .nil else .arr ((data.take n).map .chars)) ∧
    ofArgv data true = .ok (if data = [] then .nil else .arr (data.map .chars)) := by
  have key : ∀ ss : List Bytes, pushAll .nil (ss.map .chars) = .ok (if ss = [] then .nil else .arr (ss.map .chars)) := by
    intro ss
    cases ss with
    | nil => rfl
    | cons s ss =>
      have := list_array_first (.chars s) rfl (ss.map .chars)
      rw [if_neg (by simp)]
      exact this
  refine ⟨?_, key data⟩
  unfold ofStrings
  rw [if_neg (by omega), if_neg (by omega), Int.toNat_natCast, key]
  congr 1
  cases n with
  | zero => simp
  | succ n =>
    cases data with
    | nil => simp at h
    | cons => simp

example : (2 : Nat) ≤ [[97], [98, 99], ([] : Bytes)].length := by decide

/-! ## Arrays filled with a number -/

theorem setCell_in {cells : Cells} {i : Nat} (h : i < cells.length) (x : Val) : setCell cells i x = .ok (cells.set i (some x)) := by
  unfold setCell
  rw [if_neg (by omega), Int.toNat_natCast, if_pos h]

theorem set_fill (a : List (Option Val)) (x : Val) (c : Option Val) (r : List (Option Val)) : (a ++ c :: r).set a.length (some x) = (a ++ [some x]) ++ r := by
  rw [List.set_append_right _ _ (Nat.le_refl _)]; simp

theorem fillFrom_array (k : Kind) (x : Val) (m i : Nat) (r : List (Option Val)) (hr : r.length = m) :
    fillFrom x i m (.array k (List.replicate i (some x) ++ r)) = .ok (.array k (List.replicate (i + m) (some x))) := by
  induction m generalizing i r with
  | zero =>
    obtain rfl : r = [] := List.length_eq_zero_iff.1 hr
    simp [fillFrom]
  | succ m ih =>
    cases r with
    | nil => cases hr
    | cons c r =>
      rw [fillFrom]
      rw [setCell_in (by simp), Outcome.bind_ok]
      have := set_fill (List.replicate i (some x)) x c r
      rw [List.length_replicate, ← List.replicate_succ'] at this
      rw [this, ih (i + 1) r (by simpa using hr)]
      congr 3; omega

theorem resizeCells_ok (k : Kind) (cells : Cells) (n : Int) (h0 : 0 ≤ n) (h1 : n < 2 ^ 30) :
    resizeCells k cells n = .ok (cells.take n.toNat ++ List.replicate (n.toNat - cells.length) none) := by
  unfold resizeCells
  rw [Alloc.allocSize_eq _ (by split <;> omega) (by split <;> omega)]
  rfl

/-- C140: `var(n, x)` for a number `x` and at least two is the array of `n` times `x`. -/
theorem size_partial {x : Val} {k : Kind} (hx : scalarKind x.type = some k) (n : Int) (h2 : 2 ≤ n) (hn : n < 2 ^ 30) :
    ofSize n x = .ok (.array k (List.replicate n.toNat (some x))) := by
  unfold ofSize
  rw [hx]
  simp only []
  obtain ⟨m, rfl⟩ : ∃ m : Nat, n = m + 1 := ⟨(n - 1).toNat, by omega⟩
  have hr : resizeNumber k x ((m : Int) + 1) = .ok (.array k (List.replicate 1 (some x) ++ List.replicate m none)) := by
    unfold resizeNumber
    rw [if_neg (by omega), if_pos (by omega), resizeCells_ok k [] _ (by omega) hn, Outcome.bind_ok]
    rw [show ((m : Int) + 1).toNat = m + 1 by omega]
    show (setCell (List.replicate (m + 1) none) (0 : Nat) x >>= _) = _
    rw [setCell_in (by simp), Outcome.bind_ok]
    rfl
  rw [hr, Outcome.bind_ok, show ((m : Int) + 1 - 1).toNat = m by omega, fillFrom_array k x m 1 _ (by simp)]
  congr 3; omega

example : scalarKind (Val.double 0).type = some .double := rfl

/-- C140: `var(1, x)` and also `var(0, x)` is the number, not an array; less aborts; anything but a number throws. -/
theorem size_small {x : Val} {k : Kind} (hx : scalarKind x.type = some k) : ofSize 1 x = .ok (.number x) ∧ ofSize 0 x = .ok (.number x) ∧ ∀ n, n < 0 → ofSize n x = .abort := by
  refine ⟨?_, ?_, ?_⟩
  · unfold ofSize; rw [hx]; rfl
  · unfold ofSize; rw [hx]; rfl
  · intro n hn
    unfold ofSize; rw [hx]
    simp only [resizeNumber]
    rw [if_pos hn]; rfl

theorem size_array (x : Val) (h : x.type = 0) (n : Int) : ofSize n x = .thrown (.error "initialise ctor: cannot init from array") := by
  unfold ofSize; rw [h]; rfl

/-! ## Shapes -/

theorem prod_pos {sh : List Int} (h : ∀ d ∈ sh, 0 < d) : 0 < sh.prod := by
  induction sh with
  | nil => decide
  | cons d ds ih =>
    rw [List.prod_cons]
    exact Int.mul_pos (h d (by simp)) (ih (fun e he => h e (by simp [he])))

theorem product_ok {sh : List Int} (h : ∀ d ∈ sh, 0 < d) (s : Int) (h0 : 0 < s) (hs : s * sh.prod < 2 ^ 31) : product s sh = .ok (s * sh.prod) := by
  induction sh generalizing s with
  | nil => simp [product]
  | cons d ds ih =>
    have hd := h d (by simp)
    have hds : ∀ e ∈ ds, 0 < e := fun e he => h e (by simp [he])
    have hp := prod_pos hds
    rw [List.prod_cons, ← Int.mul_assoc] at hs
    have hsd : 0 < s * d := Int.mul_pos h0 hd
    have : s * d ≤ s * d * ds.prod := by nlinarith
    rw [product, cint_ok ⟨by omega, by omega⟩, Outcome.bind_ok, ih hds _ hsd hs, List.prod_cons, Int.mul_assoc]

theorem fits_pos {sh : List Int} (h : ∀ d ∈ sh, 0 < d) (hs : sh.prod < 2 ^ 31) : ViewSpec.Fits sh := by
  induction sh with
  | nil => trivial
  | cons d ds ih =>
    have hd := h d (by simp)
    have hds : ∀ e ∈ ds, 0 < e := fun e he => h e (by simp [he])
    have hp := prod_pos hds
    rw [ViewSpec.Fits]
    rw [List.prod_cons] at hs ⊢
    have : 0 < d * ds.prod := Int.mul_pos hd hp
    refine ⟨⟨by omega, hs⟩, ih hds (by nlinarith)⟩

/-- What `view(shape, x)` makes. -/
theorem newView_eq (x : Val) {sh : List Int} (hne : sh ≠ []) (h : ∀ d ∈ sh, 0 < d) (hs : sh.prod < 2 ^ 30) :
    newView sh x = .ok ((asArray x).1, ⟨(asArray x).2.take sh.prod.toNat ++ List.replicate (sh.prod.toNat - (asArray x).2.length) none, some (0 :: flat sh)⟩) := by
  have hp := prod_pos h
  unfold newView
  rw [product_ok h 1 (by decide) (by omega), Outcome.bind_ok, Int.one_mul]
  generalize asArray x = kc
  obtain ⟨k, cells⟩ := kc
  simp only []
  rw [if_neg (by omega), resizeCells_ok k cells _ (by omega) hs, Outcome.bind_ok]
  have hl : (cells.take sh.prod.toNat ++ List.replicate (sh.prod.toNat - cells.length) none).length = sh.prod.toNat := by
    rw [List.length_append, List.length_take, List.length_replicate]; omega
  have hv := view_make (a := (⟨cells.take sh.prod.toNat ++ List.replicate (sh.prod.toNat - cells.length) none, none⟩ : Arr (Option Val))) (b := 0) (off := 0) (sh := sh)
    rfl (by omega) hne (fits_pos h (by omega)) (by show ((List.length _ : Nat) : Int) < _; rw [hl]; omega) (by omega)
    (by show _ ≤ ((List.length _ : Nat) : Int); rw [hl]; omega)
  rw [hv]; rfl

/-- C140: `view(shape, x)` has the shape, but only its first element is set. -/
theorem view_unset {x : Val} {k : Kind} (hx : scalarKind x.type = some k) {sh : List Int} (hne : sh ≠ []) (h : ∀ d ∈ sh, 0 < d) (hs : sh.prod < 2 ^ 30) :
    newView sh x = .ok (k, ⟨some x :: List.replicate (sh.prod.toNat - 1) none, some (0 :: flat sh)⟩) := by
  have hp := prod_pos h
  have ha : asArray x = (k, [some x]) := by
    unfold asArray
    rw [hx]
    have : heapKind x = none := by cases x <;> first | rfl | cases hx
    rw [this]
  rw [newView_eq x hne h hs, ha]
  simp only [List.length_singleton]
  rw [List.take_of_length_le (by simp only [List.length_singleton]; omega)]
  rfl

example : ∀ d ∈ [(2 : Int), 3], 0 < d := by decide

/-- C140: an array given to `view` for the type is the array the view is made of, cut or extended to its size. -/
theorem view_takes_array {x : Val} {k : Kind} (hx : heapKind x = some k) {sh : List Int} (hne : sh ≠ []) (h : ∀ d ∈ sh, 0 < d) (hs : sh.prod < 2 ^ 30) :
    newView sh x = .ok (k, ⟨(x.elems.map some).take sh.prod.toNat ++ List.replicate (sh.prod.toNat - x.elems.length) none, some (0 :: flat sh)⟩) := by
  have ha : asArray x = (k, x.elems.map some) := by unfold asArray; rw [hx]
  rw [newView_eq x hne h hs, ha]
  simp only [List.length_map]

example : heapKind (.ints [1, 2, 3]) = some .int ∧ ∀ d ∈ [(2 : Int)], 0 < d := ⟨rfl, by decide⟩

theorem fillView_ok (x : Val) (m i : Nat) (r : List (Option Val)) (ip : List Int) (hr : r.length = m) (hb : ((i + m : Nat) : Int) < 2 ^ 31) :
    fillView x i m ⟨List.replicate i (some x) ++ r, some (0 :: ip)⟩ = .ok ⟨List.replicate (i + m) (some x), some (0 :: ip)⟩ := by
  induction m generalizing i r with
  | zero =>
    obtain rfl : r = [] := List.length_eq_zero_iff.1 hr
    simp [fillView]
  | succ m ih =>
    cases r with
    | nil => cases hr
    | cons c r =>
      have hl : locate (⟨List.replicate i (some x) ++ c :: r, some (0 :: ip)⟩ : Arr (Option Val)) (i : Int) = .ok (i : Int) := by
        have := locate_eq (a := (⟨List.replicate i (some x) ++ c :: r, some (0 :: ip)⟩ : Arr (Option Val))) (o := 0) (i := i) rfl (by omega) (by omega)
        rw [Int.add_zero] at this; exact this
      rw [fillView, hl, Outcome.bind_ok, setCell_in (by simp), Outcome.bind_ok]
      have := set_fill (List.replicate i (some x)) x c r
      rw [List.length_replicate, ← List.replicate_succ'] at this
      simp only [this]
      rw [ih (i + 1) r (by simpa using hr) (by omega), show i + 1 + m = i + (m + 1) by omega]

/-- C140: `var(shape, x)` has the shape, and all elements are `x`. -/
theorem shape_partial (x : Init) {sh : List Int} (hne : sh ≠ []) (h : ∀ d ∈ sh, 0 < d) (hs : sh.prod < 2 ^ 30) :
    ∃ k, ofShape sh x = .ok (k, ⟨List.replicate sh.prod.toNat (some x.elem), some (0 :: flat sh)⟩) := by
  have hp := prod_pos h
  have hn := newView_eq x.arg hne h hs
  generalize hc : (asArray x.arg).2.take sh.prod.toNat ++ List.replicate (sh.prod.toNat - (asArray x.arg).2.length) none = cells at hn
  have hl : cells.length = sh.prod.toNat := by
    rw [← hc, List.length_append, List.length_take, List.length_replicate]; omega
  have hsz : View.size (⟨cells, some (0 :: flat sh)⟩ : Arr (Option Val)) = .ok sh.prod :=
    HasShape.size (.view 0 sh rfl (fits_pos h (by omega)) hne)
  refine ⟨(asArray x.arg).1, ?_⟩
  unfold ofShape
  rw [hn]
  simp only [Outcome.bind_ok]
  rw [hsz, Outcome.bind_ok]
  have := fillView_ok x.elem sh.prod.toNat 0 cells (flat sh) hl (by omega)
  rw [List.replicate_zero, List.nil_append, Nat.zero_add] at this
  rw [this]; rfl

example : ∃ k, ofShape [2, 3] (.number (.float 0) .float rfl) = .ok (k, ⟨List.replicate 6 (some (.float 0)), some [0, 2, 3, 3, 1]⟩) :=
  shape_partial _ (by decide) (by decide) (by decide)

/-- C140: no dimensions throw, and a product of dimensions that does not fit an `int` is undefined. -/
theorem shape_bad (x : Init) : ofShape [] x = .thrown (.error "View::setStrides(): view must have dim > 0") ∧ ofShape [65536, 65536] x = .ub .overflow := by
  constructor
  · unfold ofShape newView
    generalize asArray x.arg = kc
    obtain ⟨k, cells⟩ := kc
    rw [show product 1 [] = .ok 1 from rfl, Outcome.bind_ok]
    simp only []
    rw [if_neg (by decide), resizeCells_ok k cells 1 (by decide) (by decide)]
    rfl
  · unfold ofShape newView
    rw [show product 1 [65536, 65536] = .ub .overflow by decide +kernel]
    rfl

end Libube.Ctor

#print axioms Libube.Ctor.list_array_first
#print axioms Libube.Ctor.list_numbers_partial
#print axioms Libube.Ctor.list_one
#print axioms Libube.Ctor.list_mixed
#print axioms Libube.Ctor.list_converted
#print axioms Libube.Ctor.strings
#print axioms Libube.Ctor.size_partial
#print axioms Libube.Ctor.size_small
#print axioms Libube.Ctor.size_array
#print axioms Libube.Ctor.view_unset
#print axioms Libube.Ctor.view_takes_array
#print axioms Libube.Ctor.shape_partial
#print axioms Libube.Ctor.shape_bad

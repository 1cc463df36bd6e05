import Verif.Model.Unary
import Verif.Props.Arith
import Verif.Props.Rows

/-! # C142: functions of arrays and views -/

namespace Libube.UnaryProps

open View Transpose Arith ArithSpec Unary

theorem loop_eq {m : Mem α} {g : α → α} {x : Nat → α} {ha pa h p N : Nat}
    (hx : ∀ i, i < N → At m ha (pa + i) (x i) ∧ (ha ≠ h ∨ pa + i < p ∨ p + i ≤ pa + i)) (ho : ∀ i, i < N → ∃ z, At m h (p + i) z) :
    ∀ (n i : Nat) (m' : Mem α), i + n = N → Updated m m' h p i (fun i => g (x i)) →
      ∃ m'', Unary.loop g ha (pa : Int) h (p : Int) i n m' = .ok m'' ∧ Updated m m'' h p N (fun i => g (x i))
  | 0, i, m', hN, u => ⟨m', rfl, by rw [← hN]; exact u⟩
  | n + 1, i, m', hN, u => by
    obtain ⟨x1, x2⟩ := hx i (by omega)
    obtain ⟨z, hz⟩ := ho i (by omega)
    have l2 := u.load x1 x2
    obtain ⟨m2, s1, s2⟩ := u.store hz
    obtain ⟨m3, e, u3⟩ := loop_eq hx ho n (i + 1) m2 (by omega) s2
    refine ⟨m3, ?_, u3⟩
    unfold Unary.loop
    rw [show ((pa : Int) + (i : Int)) = ((pa + i : Nat) : Int) by push_cast; rfl, l2,
      show ((p : Int) + (i : Int)) = ((p + i : Nat) : Int) by push_cast; rfl]
    simp only [Outcome.bind_ok]
    rw [s1]
    exact e

/-- The types a function takes: `float` and `double`, and, if it has cases for them, complex numbers. -/
theorem takes_iff (F : Unary.Fn α) (k : Num) : F.takes k = true ↔ k = .float ∨ k = .double ∨ F.cplx = true ∧ (k = .cfloat ∨ k = .cdouble) := by
  cases k <;> simp [Fn.takes]

theorem onArray_eq {m : Mem α} {conv : Num → α → α} {F : Unary.Fn α} {a o : Ref} {oa oo N : Nat} {sh sh' : List Int} (ha : IsArr m a oa sh) (ho : IsArr m o oo sh')
    (hN : sh.prod = N) (hN' : sh'.prod = N) (ht : F.takes a.kind = true) {x : Nat → α}
    (hx : ∀ i, i < N → At m a.heap (oa + i) (x i) ∧ (a.heap ≠ o.heap ∨ oa + i < oo ∨ oo + i ≤ oa + i)) :
    ∃ m', onArray conv F a o m = .ok m' ∧ Updated m m' o.heap oo N (fun i => conv o.kind (F.f a.kind (x i))) := by
  obtain ⟨dA, hA, eA, sA, _, lA⟩ := ha.shape
  obtain ⟨dO, hO, eO, sO, _, lO⟩ := ho.shape
  obtain ⟨m', e, u⟩ := loop_eq (g := fun x => conv o.kind (F.f a.kind x)) hx (ho.at hN') N 0 m (by omega) (.zero hO _)
  refine ⟨m', ?_, u⟩
  unfold onArray
  rw [eA, eO]
  simp only [Outcome.bind_ok]
  rw [sA.offset, sO.offset, sA.size]
  simp only [Outcome.bind_ok]
  rw [if_pos ht, hN, Int.toNat_natCast]
  exact e

theorem scalar_eq {m : Mem α} {conv : Num → α → α} {F : Unary.Fn α} {a o : Ref} (hc : a.kind ≠ .cdouble) :
    Unary.scalar conv F a (some o) m = (onArray conv F a o m >>= fun m => .ok (.arr o, m)) := if_neg hc

/-- A function with values of the type of the argument, one with real values, and one that does not take complex numbers, for the examples. -/
def square : Unary.Fn Int := ⟨true, false, fun _ x => x * x⟩
def absolute : Unary.Fn Int := ⟨true, true, fun _ x => x.natAbs⟩
def floor : Unary.Fn Int := ⟨false, false, fun _ x => x⟩
def keep : Num → Int → Int := fun _ x => x

/-- C142 for an output given: `f(x, y)` writes the value for every element of `x` to the element of `y` at the same position, converted to the type of `y`, and
    nothing else; the shapes may differ.  If both are views of the same array, `y` must not start behind `x` in it (`shifted`).
    Missing for the full claim: `cdouble` (`cdouble_first`), and what the function does not take (`unknown_throws`). -/
theorem given_partial (m : Mem α) (conv : Num → α → α) (F : Unary.Fn α) (a o : Ref) (oa oo N : Nat) (sh sh' : List Int) (ha : IsArr m a oa sh) (ho : IsArr m o oo sh')
    (hN : sh.prod = N) (hN' : sh'.prod = N) (ht : F.takes a.kind = true) (hc : a.kind ≠ .cdouble) (x : Nat → α)
    (hx : ∀ i, i < N → At m a.heap (oa + i) (x i)) (hd : a.heap ≠ o.heap ∨ oo ≤ oa) :
    ∃ m', callTo conv F a o m = .ok (.arr o, m') ∧ Updated m m' o.heap oo N (fun i => conv o.kind (F.f a.kind (x i))) := by
  obtain ⟨m', e, u⟩ := onArray_eq (conv := conv) ha ho hN hN' ht (fun i hi => ⟨hx i hi, hd.imp id (fun h => Or.inr (by omega))⟩)
  refine ⟨m', ?_, u⟩
  unfold callTo
  rw [scalar_eq hc, e]
  rfl

example : IsArr mem3 row 0 [3] ∧ IsArr mem3 middle 1 [3] ∧ callTo keep square row middle mem3 = .ok (.arr middle, [[1, 100, 400, 900, 5, 6], [10, 20, 30], [7]]) :=
  ⟨row_isArr, middle_isArr, by decide⟩

/-- C142 fails if the output starts behind the input in the same array: values are taken of values (11, 12 and 13 would be right). -/
theorem shifted : IsArr mem3 ⟨.float, 0, some [0, 3, 1]⟩ 0 [3] ∧ IsArr mem3 middle 1 [3] ∧
    callTo keep ⟨true, false, fun _ x => x + 10⟩ ⟨.float, 0, some [0, 3, 1]⟩ middle mem3 = .ok (.arr middle, [[1, 11, 21, 31, 5, 6], [10, 20, 30], [7]]) :=
  ⟨.view [1, 2, 3, 4, 5, 6] rfl (by decide) 0 [3] (by decide), middle_isArr, by decide⟩

/-- C142 in place: `x.f()` replaces every element of `x` by the value of the function, converted to the type of `x`, and nothing else.  Missing: as above. -/
theorem in_place_partial (m : Mem α) (conv : Num → α → α) (F : Unary.Fn α) (a : Ref) (oa N : Nat) (sh : List Int) (ha : IsArr m a oa sh) (hN : sh.prod = N)
    (ht : F.takes a.kind = true) (hc : a.kind ≠ .cdouble) (x : Nat → α) (hx : ∀ i, i < N → At m a.heap (oa + i) (x i)) :
    ∃ m', callTo conv F a a m = .ok (.arr a, m') ∧ Updated m m' a.heap oa N (fun i => conv a.kind (F.f a.kind (x i))) :=
  given_partial m conv F a a oa oa N sh sh ha ha hN hN ht hc x hx (Or.inr (Nat.le_refl oa))

example : IsArr mem3 matrix 0 ([2] ++ [3]) ∧ callTo keep square matrix matrix mem3 = .ok (.arr matrix, [[1, 4, 9, 16, 25, 36], [10, 20, 30], [7]]) :=
  ⟨matrix_isArr, by decide⟩

/-- Whether there is an array does not depend on what is in it. -/
theorem isArr_move {m m' : Mem α} {a : Ref} {oa h : Nat} {sh : List Int} {A d : List α} (ha : IsArr m a oa sh) (hA : m[a.heap]? = some A)
    (hd : m'[h]? = some d) (hl : d.length = A.length) (h0 : 0 ≤ sh.prod) : IsArr m' ⟨a.kind, h, a.ip⟩ oa sh := by
  cases ha with
  | plain d0 hd0 hl0 hi =>
    cases hd0.symm.trans hA
    rw [← hl]
    exact .plain d hd (by rw [hl]; exact hl0) hi
  | view d0 hd0 hl0 o sh hv =>
    cases hd0.symm.trans hA
    refine .view d hd (by rw [hl]; exact hl0) _ _ ?_
    obtain ⟨b, hb, _, hs, hp, hlow⟩ := view_shape hv
    have hz : b = 0 := by
      have : Outcome.ok (0 : Int) = Outcome.ok b := hb
      cases this; rfl
    subst hz
    rw [Int.zero_add] at hs hp hlow
    obtain ⟨hf, hn⟩ := hs.fits
    have hip : a.ip = some ((oa : Int) :: flat sh) := by
      obtain ⟨ip, hip⟩ := view_ip hv
      cases hs with
      | view _ _ hi _ _ => exact hi
      | plain hi hl => rw [hi] at hip; cases hip
    have hm := view_make (a := (⟨d, none⟩ : Arr α)) (sh := sh) (off := (oa : Int)) (b := 0) rfl (by omega) hn hf
      (by show (d.length : Int) < _; rw [hl]; exact hl0) h0 (by rw [Int.zero_add]; show _ ≤ (d.length : Int); rw [hl]; exact hp)
    rw [hm, hip, Int.zero_add]

/-- C142 for functions with values of the type of the argument: `f(x)` is a new array of the same type and shape with the values, and nothing that existed is
    changed.  Missing: as for `given_partial`. -/
theorem new_partial (m : Mem α) (conv : Num → α → α) (F : Unary.Fn α) (hr : F.real = false) (a : Ref) (oa N : Nat) (sh : List Int) (ha : IsArr m a oa sh) (hN : sh.prod = N)
    (ht : F.takes a.kind = true) (hc : a.kind ≠ .cdouble) (junk A : List α) (hA : m[a.heap]? = some A) (hj : junk.length = A.length)
    (x : Nat → α) (hx : ∀ i, i < N → At m a.heap (oa + i) (x i)) :
    ∃ m' r, call conv F a junk m = .ok (.arr r, m') ∧ r.kind = a.kind ∧ r.heap = m.length ∧ IsArr m' r oa sh ∧
      (∀ i, i < N → At m' r.heap (oa + i) (conv a.kind (F.f a.kind (x i)))) ∧ ∀ h, h < m.length → m'[h]? = m[h]? := by
  have hO : (m ++ [junk])[m.length]? = some junk := by simp
  have ho : IsArr (m ++ [junk]) ⟨a.kind, m.length, a.ip⟩ oa sh := isArr_move ha hA hO hj (by omega)
  have hlt := isArr_lt ha
  obtain ⟨m', e, u⟩ := given_partial (m ++ [junk]) conv F a ⟨a.kind, m.length, a.ip⟩ oa oa N sh sh (isArr_append ha junk) ho hN hN ht hc x
    (fun i hi => at_append (hx i hi)) (Or.inr (Nat.le_refl oa))
  obtain ⟨u1, D, D', g1, g2, g3, g4, g5⟩ := u
  have hDj : D = junk := Option.some.inj (g1.symm.trans hO)
  subst hDj
  refine ⟨m', ⟨a.kind, m.length, a.ip⟩, ?_, rfl, rfl, isArr_move ha hA g2 (by rw [g3, hj]) (by omega), fun i hi => ⟨D', g2, g4 i hi⟩, fun h hh => ?_⟩
  · unfold call Unary.alloc
    rw [hr]
    exact e
  · rw [u1 h (by show h ≠ m.length; omega), List.getElem?_append_left hh]

example : IsArr mem3 middle 1 [3] ∧ call keep square middle [0, 0, 0, 0, 0, 0] mem3 = .ok (.arr ⟨.float, 3, some [1, 3, 1]⟩, mem3 ++ [[0, 4, 9, 16, 0, 0]]) :=
  ⟨middle_isArr, by decide⟩

/-- The type of the absolute value of a number (lube/math.cpp:93-103). -/
def realKind : Num → Num
  | .float | .cfloat => .float
  | _ => .double

/-- C142 for functions with real values: `f(x)` is a new real array of the same shape with the values, and nothing that existed is changed.
    Missing: as for `given_partial`. -/
theorem real_partial (m : Mem α) (conv : Num → α → α) (F : Unary.Fn α) (hr : F.real = true) (a : Ref) (oa N : Nat) (sh : List Int) (ha : IsArr m a oa sh) (hN : sh.prod = N)
    (hpos : ∀ d ∈ sh, 0 < d) (ht : F.takes a.kind = true) (hc : a.kind ≠ .cdouble) (junk : List α) (hj : junk.length = N)
    (x : Nat → α) (hx : ∀ i, i < N → At m a.heap (oa + i) (x i)) :
    ∃ m' r, call conv F a junk m = .ok (.arr r, m') ∧ r.kind = realKind a.kind ∧ r.heap = m.length ∧ IsArr m' r 0 sh ∧
      (∀ i, i < N → At m' r.heap i (conv (realKind a.kind) (F.f a.kind (x i)))) ∧ ∀ h, h < m.length → m'[h]? = m[h]? := by
  obtain ⟨dA, hA, eA, sA, lt, lA⟩ := ha.shape
  have hne : sh ≠ [] := sA.fits.2
  obtain ⟨hv, -, hn⟩ := Rows.newView_eq (junk := junk) hne hpos (by rw [hj, hN]) (by rw [hN]; omega)
  have hO : (m ++ [junk])[m.length]? = some junk := by simp
  have mk : ∀ (m' : Mem α) (k : Num) (d : List α), m'[m.length]? = some d → d.length = junk.length → IsArr m' ⟨k, m.length, some (0 :: flat sh)⟩ 0 sh := by
    intro m' k d hd hl
    exact .view d hd (by rw [hl, hj]; omega) _ _ (hn d hl).1
  have hal : allocReal a junk m = .ok (some ⟨realKind a.kind, m.length, some (0 :: flat sh)⟩, m ++ [junk]) := by
    unfold allocReal
    rw [eA]
    simp only [Outcome.bind_ok]
    rw [sA.dim, show shapeLoop (⟨dA, a.ip⟩ : Arr α) 0 sh.length = .ok sh from sA.shapeLoop [] sh rfl]
    simp only [Outcome.bind_ok]
    rw [hv]
    revert ht hc
    cases a.kind <;> intro ht hc <;> first | rfl | cases ht | exact absurd rfl hc
  obtain ⟨m', e, u⟩ := given_partial (m ++ [junk]) conv F a ⟨realKind a.kind, m.length, some (0 :: flat sh)⟩ oa 0 N sh sh (isArr_append ha junk) (mk _ _ junk hO rfl) hN hN ht hc x
    (fun i hi => at_append (hx i hi)) (Or.inr (Nat.zero_le oa))
  obtain ⟨u1, D, D', g1, g2, g3, g4, g5⟩ := u
  have hDj : D = junk := Option.some.inj (g1.symm.trans hO)
  subst hDj
  refine ⟨m', ⟨realKind a.kind, m.length, some (0 :: flat sh)⟩, ?_, rfl, rfl, mk m' _ D' g2 g3, fun i hi => ⟨D', g2, by have := g4 i hi; rwa [Nat.zero_add] at this⟩, fun h hh => ?_⟩
  · unfold call Unary.alloc
    rw [hr, if_pos rfl, hal]
    exact e
  · rw [u1 h (by show h ≠ m.length; omega), List.getElem?_append_left hh]

/-- A view of complex numbers with two rows; its absolute values. -/
example : IsArr [[0, -1, 2, -3, 4]] ⟨.cfloat, 0, some [1, 2, 2, 2, 1]⟩ 1 [2, 2] ∧
    call keep absolute ⟨.cfloat, 0, some [1, 2, 2, 2, 1]⟩ [9, 9, 9, 9] [[0, -1, 2, -3, 4]] =
      .ok (.arr ⟨.float, 1, some [0, 2, 2, 2, 1]⟩, [[0, -1, 2, -3, 4], [1, 2, 3, 4]]) :=
  ⟨.view [0, -1, 2, -3, 4] rfl (by decide) 1 [2, 2] (by decide), by decide⟩

/-- C142 fails for types that the function does not take, integers and for some complex numbers: it throws. -/
theorem unknown_throws (m : Mem α) (conv : Num → α → α) (F : Unary.Fn α) (hr : F.real = false) (a : Ref) (oa N : Nat) (sh : List Int) (ha : IsArr m a oa sh) (hN : sh.prod = N)
    (hN0 : 0 < N) (ht : F.takes a.kind = false) (hc : a.kind ≠ .cdouble) (junk A : List α) (hA : m[a.heap]? = some A) (hj : junk.length = A.length) :
    call conv F a junk m = .thrown (.error "#F##::scalar: Unknown type") ∧ callTo conv F a a m = .thrown (.error "#F##::scalar: Unknown type") := by
  have key : ∀ (m' : Mem α) (o : Ref), IsArr m' a oa sh → IsArr m' o oa sh → Unary.scalar conv F a (some o) m' = .thrown (.error "#F##::scalar: Unknown type") := by
    intro m' o ha ho
    obtain ⟨dA, hA, eA, sA, _, lA⟩ := ha.shape
    obtain ⟨dO, hO, eO, sO, _, lO⟩ := ho.shape
    rw [scalar_eq hc]
    unfold onArray
    rw [eA, eO]
    simp only [Outcome.bind_ok]
    rw [sA.offset, sO.offset, sA.size]
    simp only [Outcome.bind_ok]
    rw [ht, if_neg (by simp), if_pos (by omega)]
    rfl
  refine ⟨?_, key m a ha ha⟩
  unfold call Unary.alloc
  rw [hr]
  exact key _ _ (isArr_append ha junk) (isArr_move ha hA List.getElem?_concat_length hj (by omega))

example : IsArr mem3 { matrix with kind := .cfloat } 0 ([2] ++ [3]) ∧
    call keep floor { matrix with kind := .cfloat } [0, 0, 0, 0, 0, 0] mem3 = .thrown (.error "#F##::scalar: Unknown type") :=
  ⟨.view [1, 2, 3, 4, 5, 6] rfl (by decide) 0 [2, 3] (by decide), by decide⟩

/-- The same for functions with real values of integers: there is no output to write to. -/
theorem real_int_throws (m : Mem α) (conv : Num → α → α) (F : Unary.Fn α) (hr : F.real = true) (a : Ref) (oa N : Nat) (sh : List Int) (ha : IsArr m a oa sh) (hN : sh.prod = N)
    (hN0 : 0 < N) (hk : a.kind = .int ∨ a.kind = .long) (junk : List α) : call conv F a junk m = .thrown (.error "var::at(): uninitialised") := by
  obtain ⟨dA, hA, eA, sA, _, lA⟩ := ha.shape
  have hal : allocReal a junk m = .ok (none, m) := by
    unfold allocReal
    rw [eA]
    simp only [Outcome.bind_ok]
    rw [sA.dim, show shapeLoop (⟨dA, a.ip⟩ : Arr α) 0 sh.length = .ok sh from sA.shapeLoop [] sh rfl]
    rcases hk with h | h <;> rw [h] <;> rfl
  have hs : Unary.scalar conv F a none m = onNil a m := by
    unfold Unary.scalar
    rw [if_neg (by rcases hk with h | h <;> rw [h] <;> simp)]
  unfold call Unary.alloc
  rw [hr, if_pos rfl, hal]
  show Unary.scalar conv F a none m = _
  rw [hs]
  unfold onNil
  rw [eA]
  simp only [Outcome.bind_ok]
  rw [sA.size]
  simp only [Outcome.bind_ok]
  rw [if_pos (by omega)]

example : call keep absolute ⟨.int, 1, none⟩ [] mem3 = .thrown (.error "var::at(): uninitialised") := by decide

/-- C142 fails for arrays of `cdouble`: a function with real values gives one number, the value for the first element. -/
theorem cdouble_first (m : Mem α) (conv : Num → α → α) (F : Unary.Fn α) (hr : F.real = true) (hf : F.cplx = true) (a : Ref) (oa N : Nat) (sh : List Int) (ha : IsArr m a oa sh)
    (hN : sh.prod = N) (hpos : ∀ d ∈ sh, 0 < d) (hk : a.kind = .cdouble) (junk : List α) (hj : junk.length = N) (x : α) (hx : At m a.heap oa x) :
    call conv F a junk m = .ok (.num (F.f .cdouble x), m ++ [junk]) ∧ callTo conv F a a m = .ok (.num (F.f .cdouble x), m) := by
  obtain ⟨dA, hA, eA, sA, lt, lA⟩ := ha.shape
  have key : ∀ (m' : Mem α) (o : Ref), IsArr m' a oa sh → At m' a.heap oa x → Unary.scalar conv F a (some o) m' = .ok (.num (F.f .cdouble x), m') := by
    intro m' o ha hx
    obtain ⟨dA, hA, eA, sA, _, lA⟩ := ha.shape
    unfold Unary.scalar Unary.onFirst
    rw [if_pos hk, if_pos (show F.takes .cdouble = true from hf), eA]
    simp only [Outcome.bind_ok]
    rw [sA.offset]
    simp only [Outcome.bind_ok]
    rw [loadAt_at hx]
    simp only [Outcome.bind_ok]
    rw [if_pos hr]
  refine ⟨?_, key m a ha hx⟩
  obtain ⟨hv, -, hn⟩ := Rows.newView_eq (junk := junk) sA.fits.2 hpos (by rw [hj, hN]) (by rw [hN]; omega)
  have hal : allocReal a junk m = .ok (some ⟨.double, m.length, some (0 :: flat sh)⟩, m ++ [junk]) := by
    unfold allocReal
    rw [eA]
    simp only [Outcome.bind_ok]
    rw [sA.dim, show shapeLoop (⟨dA, a.ip⟩ : Arr α) 0 sh.length = .ok sh from sA.shapeLoop [] sh rfl]
    simp only [Outcome.bind_ok]
    rw [hv, hk]
    rfl
  unfold call Unary.alloc
  rw [hr, if_pos rfl, hal]
  exact key _ _ (isArr_append ha junk) (at_append hx)

example : IsArr mem3 { row with kind := .cdouble } 0 [3] ∧ call keep absolute { row with kind := .cdouble } [0, 0, 0] mem3 = .ok (.num 10, mem3 ++ [[0, 0, 0]]) :=
  ⟨.plain [10, 20, 30] rfl (by decide) rfl, by decide⟩

/-- The same for functions with complex values: the result has one element whatever the size of `x`, and in place the other elements are lost to `x`. -/
theorem cdouble_lost (m : Mem α) (conv : Num → α → α) (F : Unary.Fn α) (hr : F.real = false) (hf : F.cplx = true) (a : Ref) (hi : a.ip = none) (hk : a.kind = .cdouble)
    (junk : List α) (x : α) (hx : At m a.heap 0 x) :
    call conv F a junk m = .ok (.arr ⟨.cdouble, m.length + 1, none⟩, m ++ [junk] ++ [[F.f .cdouble x]]) ∧
      callTo conv F a a m = .ok (.arr ⟨.cdouble, m.length, none⟩, m ++ [[F.f .cdouble x]]) := by
  have key : ∀ (m' : Mem α) (h : Nat), At m' a.heap 0 x →
      Unary.scalar conv F a (some ⟨.cdouble, h, none⟩) m' = .ok (.arr ⟨.cdouble, m'.length, none⟩, m' ++ [[F.f .cdouble x]]) := by
    intro m' h hx
    obtain ⟨d, hd, hx'⟩ := id hx
    unfold Unary.scalar Unary.onFirst
    rw [if_pos hk, if_pos (show F.takes .cdouble = true from hf), arrOf_some hd]
    simp only [Outcome.bind_ok]
    rw [show offset (⟨d, a.ip⟩ : Arr α) = .ok 0 by rw [hi]; rfl, Outcome.bind_ok, show loadAt m' a.heap 0 = .ok x from loadAt_at (p := 0) hx, Outcome.bind_ok, hr]
    rfl
  have ea : a = ⟨.cdouble, a.heap, none⟩ := by rw [← hk, ← hi]
  refine ⟨?_, ?_⟩
  · unfold call Unary.alloc
    rw [hr]
    have h := key (m ++ [junk]) m.length (at_append hx)
    rw [List.length_append] at h
    show Unary.scalar conv F a (some ⟨a.kind, m.length, a.ip⟩) (m ++ [junk]) = _
    rw [hk, hi]
    exact h
  · have h := key m a.heap hx
    rw [← ea] at h
    exact h

example : call keep square { row with kind := .cdouble } [0, 0, 0] mem3 = .ok (.arr ⟨.cdouble, 4, none⟩, mem3 ++ [[0, 0, 0], [100]]) ∧
    callTo keep square { row with kind := .cdouble } { row with kind := .cdouble } mem3 = .ok (.arr ⟨.cdouble, 3, none⟩, mem3 ++ [[100]]) := by decide

#print axioms takes_iff
#print axioms given_partial
#print axioms shifted
#print axioms in_place_partial
#print axioms new_partial
#print axioms real_partial
#print axioms unknown_throws
#print axioms real_int_throws
#print axioms cdouble_first
#print axioms cdouble_lost

end Libube.UnaryProps

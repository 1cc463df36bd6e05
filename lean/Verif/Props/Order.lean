import Verif.Lemmas.Same
import Verif.Lemmas.MapOps

/-! # C25, C26, C28-C32, C75: comparison, binary search, sorting, index

`n` is the call depth granted to a comparison; theorems hold for every `n` large enough for the
nesting of the values, that is, the recursion of the C++ functions ends. -/

namespace Libube.Order

open Libube Libube.CString Libube.OrderSpec

/-! ## Equality -/

/-- C25, meaning: for values without nil and complex doubles, `==` always returns, and it returns
    true exactly for values with the same contents. -/
theorem eq_decides_same (x y : Val) (hx : Plain x) (hy : Plain y) (n : Nat) (hn : depth x < n) :
    (eq n x y = .ok true ↔ Same x y) ∧ (eq n x y = .ok false ↔ ¬ Same x y) := by
  obtain ⟨r, h1, h2⟩ := neq_plain n x y hx hy hn
  simp only [eq, h1, Outcome.bind_ok]
  cases r <;> simp_all

-- [1, "a"] with a dense and a generic array
example : Plain (.arr [.int 1, .chars [97]]) :=
  .array _ _ rfl (by simp) (by
    intro x hx
    simp only [List.mem_cons, List.not_mem_nil, or_false] at hx
    rcases hx with rfl | rfl
    · exact .int 1
    · exact .array _ _ rfl (by simp) (by simp; exact .char 97))

/-- C25 for values that contain neither nil, nor complex doubles, nor NaN: `==` never fails and
    is an equivalence relation.  Missing for the full claim: nil (`nil_eq_nil_undefined`), complex
    doubles (`cdouble_eq_diverges`) and NaN (`nan_not_reflexive`). -/
theorem eq_equivalence_partial (x y z : Val) (hx : Plain x) (hy : Plain y) (hz : Plain z)
    (nx : NoNaN x) (n : Nat) (hnx : depth x < n) (hny : depth y < n) :
    eq n x x = .ok true ∧
    (∃ r, eq n x y = .ok r) ∧
    (eq n x y = .ok true → eq n y x = .ok true) ∧
    (eq n x y = .ok true → eq n y z = .ok true → eq n x z = .ok true) := by
  refine ⟨?_, ?_, ?_, ?_⟩
  · exact (eq_decides_same x x hx hx n hnx).1.2 (same_refl nx)
  · by_cases h : Same x y
    · exact ⟨_, (eq_decides_same x y hx hy n hnx).1.2 h⟩
    · exact ⟨_, (eq_decides_same x y hx hy n hnx).2.2 h⟩
  · intro h
    exact (eq_decides_same y x hy hx n hny).1.2 (same_symm ((eq_decides_same x y hx hy n hnx).1.1 h))
  · intro h1 h2
    exact (eq_decides_same x z hx hz n hnx).1.2 (same_trans
      ((eq_decides_same x y hx hy n hnx).1.1 h1) ((eq_decides_same y z hy hz n hny).1.1 h2))

-- {1, 2} as a dense array and as an array of vars
example : Plain (.ints [1, 2]) ∧ NoNaN (.ints [1, 2]) ∧ depth (.ints [1, 2]) < 2 ∧
    eq 2 (.ints [1, 2]) (.arr [.int 1, .int 2]) = .ok true :=
  ⟨.array _ _ rfl (by simp) (by simp; exact ⟨.int 1, .int 2⟩),
   .array _ _ rfl (by simp; exact ⟨.int 1, .int 2⟩), by simp [depth], by decide +kernel⟩

/-- C25 and C75 fail for nil: `nil == nil` dereferences a null pointer, and so does comparing
    nil with any empty array, although the swapped comparison returns. -/
theorem nil_eq_nil_undefined (n : Nat) :
    eq (n + 1) .nil .nil = .ub .nullDeref ∧ eq (n + 1) .nil (.chars []) = .ub .nullDeref ∧
    eq (n + 1) (.chars []) .nil = .ok true := by
  refine ⟨?_, ?_, ?_⟩ <;> simp [eq, neq, Val.type, Val.size, Val.elems, Val.hasHeap, neqLoop]

/-- C25 fails for NaN. -/
theorem nan_not_reflexive (n : Nat) : ∃ x, eq (n + 1) (.double x) (.double x) = .ok false :=
  ⟨0x7ff8000000000000#64, by simp only [eq, neq_double, Outcome.bind_ok]; decide +kernel⟩

/-- C25 fails for complex doubles: comparing two arrays that start with one never returns. -/
theorem cdouble_eq_diverges (n : Nat) (x y : BitVec 64 × BitVec 64) :
    eq n (.cdoubles [x]) (.cdoubles [y]) = .diverge := by
  have h : ∀ (n : Nat) x y, neq n (.cdoubles [x]) (.cdoubles [y]) = .diverge := by
    intro n
    induction n with
    | zero => intros; rfl
    | succ n ih =>
      intro x y
      rw [neq_heaps n rfl rfl]
      simp [Val.elems, neqLoop, ih]
  simp [eq, h]

/-- C26 fails: maps with different keys compare equal. -/
theorem map_equality_ignores_keys : ∃ p q : List (Val × Val),
    eq 2 (.map p) (.map q) = .ok true ∧ ¬ ∃ k ∈ p.map Prod.fst, ∃ l ∈ q.map Prod.fst, SameKey k l :=
  ⟨[(.chars [97], .int 1)], [(.chars [98], .int 1)], by decide +kernel, by simp [SameKey]⟩

/-- C26, what holds: equality of maps is equality of the lists of values in key order.
    Missing for the full claim: the keys (`map_equality_ignores_keys`). -/
theorem map_equality_partial (p q : List (Val × Val)) (hp : ∀ x ∈ p, Plain x.2)
    (hq : ∀ x ∈ q, Plain x.2) (n : Nat) (hn : depth (.map p) < n) :
    eq n (.map p) (.map q) = .ok true ↔
      p.length = q.length ∧ ∀ (i : Nat) (h : i < p.length) (h' : i < q.length), Same p[i].2 q[i].2 := by
  have pl : ∀ p : List (Val × Val), (∀ x ∈ p, Plain x.2) → Plain (.map p) := by
    intro p hp
    refine .array _ _ rfl (by simp) ?_
    simp only [List.mem_map]
    rintro _ ⟨x, hx, rfl⟩
    exact hp x hx
  rw [(eq_decides_same _ _ (pl p hp) (pl q hq) n hn).1, same_heaps rfl rfl]
  simp [Val.elems]

example : (∀ x ∈ ([(.chars [97], .int 1)] : List (Val × Val)), Plain x.2) := by
  simp; exact .int 1

/-! ## Order -/

/-- C28 for characters, integers, non-NaN numbers and NUL-free strings, C29 for the same values of
    different types: `<` and `==` return, agree with the intended order, and so form a strict
    linear order up to `==`.  Missing for C28 in full: arrays (`array_order_not_asymmetric`), NaN
    (`nan_incomparable`) and strings with NUL (`nul_strings_incomparable`). -/
theorem key_order_partial (a b c : Val) (ha : IsKey a) (hb : IsKey b) (hc : IsKey c) (n : Nat)
    (hn : 2 ≤ n) :
    (lt n a b = .ok true ↔ KeyLt a b) ∧ (lt n a b = .ok false ↔ ¬ KeyLt a b) ∧
    (eq n a b = .ok true ↔ SameKey a b) ∧ (eq n a b = .ok false ↔ ¬ SameKey a b) ∧
    lt n a a = .ok false ∧
    (lt n a b = .ok true → lt n b a = .ok false) ∧
    (lt n a b = .ok true → lt n b c = .ok true → lt n a c = .ok true) ∧
    ((lt n a b = .ok false ∧ lt n b a = .ok false) ↔ eq n a b = .ok true) := by
  obtain ⟨n, rfl⟩ : ∃ m, n = m + 2 := ⟨n - 2, by omega⟩
  simp only [eq, lt_key (n + 1) ha hb, lt_key (n + 1) hb ha, lt_key (n + 1) ha ha,
    lt_key (n + 1) hb hc, lt_key (n + 1) ha hc, neq_key n ha hb, keyLt_iff ha hb,
    sameKey_iff ha hb, Outcome.bind_ok, Outcome.ok.injEq, decide_eq_true_eq, decide_eq_false_iff_not,
    Bool.not_eq_true', Bool.not_eq_false', not_not, lt_irrefl, not_false_eq_true, true_and, iff_self]
  refine ⟨fun h => not_lt_of_gt h, fun h1 h2 => lt_trans h1 h2, ?_⟩
  constructor
  · rintro ⟨h1, h2⟩; exact le_antisymm (not_lt.1 h2) (not_lt.1 h1)
  · rintro h; rw [h]; simp

example : IsKey (.chars [97]) ∧ IsKey (.int (-3)) ∧ IsKey (.double 0x3ff0000000000000#64) :=
  ⟨by simp [IsKey], trivial, ⟨_, rfl⟩⟩

/-- C28 fails for arrays: each of {1,5} and {2,3} is less than the other. -/
theorem array_order_not_asymmetric (n : Nat) :
    lt (n + 2) (.ints [1, 5]) (.ints [2, 3]) = .ok true ∧
    lt (n + 2) (.ints [2, 3]) (.ints [1, 5]) = .ok true := by
  constructor <;>
    (unfold lt; simp only [Val.type, Val.hasHeap, Val.elems, List.map, ltLoop, lt_int]; decide +kernel)

/-- C28 fails for arrays: a proper prefix is neither less nor greater, yet not equal. -/
theorem array_prefix_incomparable (n : Nat) :
    lt (n + 2) (.ints [1]) (.ints [1, 2]) = .ok false ∧
    lt (n + 2) (.ints [1, 2]) (.ints [1]) = .ok false ∧
    eq (n + 2) (.ints [1]) (.ints [1, 2]) = .ok false := by
  refine ⟨?_, ?_, ?_⟩
  · unfold lt; simp only [Val.type, Val.hasHeap, Val.elems, List.map, ltLoop, lt_int]; decide +kernel
  · unfold lt; simp only [Val.type, Val.hasHeap, Val.elems, List.map, ltLoop, lt_int]; decide +kernel
  · have := neq_heaps (n + 1) (a := .ints [1]) (b := .ints [1, 2]) rfl rfl
    simp only [eq, this]
    rfl

/-- C28 fails for NaN: it is incomparable with, but not equal to, 1. -/
theorem nan_incomparable (n : Nat) : ∃ x y,
    lt (n + 1) (.double x) (.double y) = .ok false ∧ lt (n + 1) (.double y) (.double x) = .ok false ∧
    eq (n + 1) (.double x) (.double y) = .ok false :=
  ⟨0x7ff8000000000000#64, 0x3ff0000000000000#64, by
    simp only [eq, lt_double, neq_double, Outcome.bind_ok]; decide +kernel⟩

/-- C28 fails for strings with NUL: "x\0a" and "x\0b" are incomparable but not equal. -/
theorem nul_strings_incomparable (n : Nat) :
    lt (n + 1) (.chars [120, 0, 97]) (.chars [120, 0, 98]) = .ok false ∧
    lt (n + 1) (.chars [120, 0, 98]) (.chars [120, 0, 97]) = .ok false ∧
    eq (n + 2) (.chars [120, 0, 97]) (.chars [120, 0, 98]) = .ok false := by
  refine ⟨?_, ?_, ?_⟩
  · rw [lt_chars]; decide +kernel
  · rw [lt_chars]; decide +kernel
  · have := neqLoop_chars n [120, 0, 97] [120, 0, 98] rfl
    simp only [eq, neq_heaps (n + 1) (a := .chars [120, 0, 97]) (b := .chars [120, 0, 98]) rfl rfl,
      Val.elems, this]
    decide +kernel

/-- C29: between values of different kinds (scalars of any type and value; strings and other
    arrays count as one kind) the order is that of the kinds, and they are never equal. -/
theorem mixed_kinds (a b : Val) (hab : kind a ≠ kind b) (n : Nat) :
    lt (n + 1) a b = .ok (decide (kind a < kind b)) ∧ eq (n + 1) a b = .ok false := by
  have h : ∀ v : Val, v.type = kind v := by intro v; cases v <;> rfl
  have hne : a.type ≠ b.type := by rw [h, h]; exact hab
  rw [lt_type n hne, h, h]
  exact ⟨rfl, by simp [eq, neq_type n hne]⟩

example : kind (.int 3) ≠ kind (.chars [97]) := by decide

/-- C29: any two keys, of whatever kinds, are comparable. -/
theorem mixed_total (a b : Val) (ha : IsKey a) (hb : IsKey b) (n : Nat) (hn : 2 ≤ n) :
    lt n a b = .ok true ∨ eq n a b = .ok true ∨ lt n b a = .ok true := by
  obtain ⟨n, rfl⟩ : ∃ m, n = m + 2 := ⟨n - 2, by omega⟩
  simp only [eq, lt_key (n + 1) ha hb, lt_key (n + 1) hb ha, neq_key n ha hb, Outcome.bind_ok,
    Outcome.ok.injEq, decide_eq_true_eq, Bool.not_eq_true', decide_eq_false_iff_not, not_not]
  exact lt_trichotomy _ _

example : IsKey (.char 97) ∧ IsKey (.chars []) := ⟨trivial, by simp [IsKey]⟩

/-- C75, what holds: comparing a scalar with nil returns, in both orders.  Missing for the full
    claim: nil with nil or arrays (`nil_eq_nil_undefined`, `nil_order_undefined`). -/
theorem nil_compare_partial (x : Val) (hx : kind x ≠ 0) (n : Nat) :
    eq (n + 1) x .nil = .ok false ∧ eq (n + 1) .nil x = .ok false ∧
    lt (n + 1) x .nil = .ok false ∧ lt (n + 1) .nil x = .ok true := by
  have h : x.type ≠ (Val.nil).type := by cases x <;> simp [kind, Val.type] at hx ⊢
  have h0 : 0 < x.type := Nat.pos_of_ne_zero h
  refine ⟨?_, ?_, ?_, ?_⟩
  · simp [eq, neq_type n h]
  · simp [eq, neq_type n h.symm]
  · rw [lt_type n h]; simp [Val.type]
  · rw [lt_type n h.symm]; exact congrArg _ (decide_eq_true h0)

example : kind (.int 0) ≠ 0 := by decide

/-- C75 fails: ordering nil against nil or any array, in either order, dereferences a null
    pointer. -/
theorem nil_order_undefined (x : Val) (hx : kind x = 0) (n : Nat) :
    lt (n + 1) .nil x = .ub .nullDeref ∧ lt (n + 1) x .nil = .ub .nullDeref := by
  cases x <;> simp [kind] at hx <;>
    (constructor <;> simp [lt, Val.type, Val.hasHeap])

example : kind (.chars [97]) = 0 := rfl

/-! ## Binary search, sort, index -/

/-- C30: in an array in non-descending order, binary search returns the lower bound: everything
    before is less than the probe, nothing from there on is; and it compares at most
    1 + log2(size) times. -/
theorem binary_lower_bound (xs : List Val) (k : Val) (hx : ∀ x ∈ xs, IsKey x) (hk : IsKey k)
    (hs : xs.Pairwise (fun x y => ¬ KeyLt y x)) (n : Nat) (hn : 1 ≤ n) :
    ∃ i c, binaryCount n xs k = .ok (i, c) ∧ i ≤ xs.length ∧
      (∀ (j : Nat) (h : j < xs.length), j < i ↔ KeyLt xs[j] k) ∧
      c ≤ if xs = [] then 0 else Nat.log 2 xs.length + 1 := by
  obtain ⟨n, rfl⟩ : ∃ m, n = m + 1 := ⟨n - 1, by omega⟩
  have hK : LtClass (n + 1) IsKey code := fun a b ha hb => lt_key n ha hb
  have hs' : xs.Pairwise (fun x y => code x ≤ code y) := by
    refine List.Pairwise.imp_of_mem ?_ hs
    intro x y h1 h2 h
    rw [keyLt_iff (hx y h2) (hx x h1)] at h
    exact not_lt.1 h
  obtain ⟨l1, l2, rfl, h1, h2⟩ := sorted_split code xs (code k) hs'
  obtain ⟨c, e1, e2, e3⟩ := binaryCount_split hK l1 l2 k hk (fun x h => hx x (by simp [h]))
    (fun x h => hx x (by simp [h])) h1 h2
  refine ⟨l1.length, c, e1, by simp, ?_, ?_⟩
  · intro j h
    rw [keyLt_iff (hx _ (List.getElem_mem h)) hk]
    constructor
    · intro hj
      rw [List.getElem_append_left hj]; exact h1 _ (List.getElem_mem hj)
    · intro hj
      by_contra hc
      rw [List.getElem_append_right (by omega)] at hj
      exact h2 _ (List.getElem_mem _) hj
  · by_cases h : l1 ++ l2 = []
    · rw [if_pos h, e3 h]
    · rw [if_neg h]; exact e2 h

example : ([.int 1, .int 3] : List Val).Pairwise (fun x y => ¬ KeyLt y x) := by
  simp [KeyLt]

/-- C30 for arrays of whatever values: if, seen from the probe, the array consists of elements
    less than the probe followed by elements not less than it, binary search returns the number
    of the former, with at most 1 + log2(size) comparisons. -/
theorem binary_partition_point (l1 l2 : List Val) (k : Val) (n : Nat)
    (h1 : ∀ x ∈ l1, lt n x k = .ok true) (h2 : ∀ x ∈ l2, lt n x k = .ok false) :
    ∃ c, binaryCount n (l1 ++ l2) k = .ok (l1.length, c) ∧
      c ≤ if l1 ++ l2 = [] then 0 else Nat.log 2 (l1 ++ l2).length + 1 := by
  unfold binaryCount
  by_cases h : l1 ++ l2 = []
  · rw [if_pos (by simp [h]), if_pos h]
    have : l1 = [] := (List.append_eq_nil_iff.1 h).1
    exact ⟨0, by simp [this], le_refl _⟩
  · have hl : (l1 ++ l2).length ≠ 0 := by simpa using h
    rw [if_neg hl, if_neg h]
    obtain ⟨c, e1, e2⟩ := binaryLoop_spec (fun pos => match (l1 ++ l2)[pos]? with
      | some x => lt n x k | none => .ub .outOfBounds) l1.length 0 (l1 ++ l2).length (by omega)
      (by simp) (by
        intro pos _ hp
        simp only [List.getElem?_eq_getElem hp]
        by_cases hlt : pos < l1.length
        · rw [List.getElem_append_left hlt, h1 _ (List.getElem_mem _)]; simp [hlt]
        · rw [List.getElem_append_right (by omega), h2 _ (List.getElem_mem _)]; simp [hlt])
    exact ⟨c, e1, e2 (by omega)⟩

-- {1, 2, 2, 3} searched for 2, which the other comparisons need not order
example : (∀ x ∈ [Val.int 1], lt 1 x (.int 2) = .ok true) ∧
    (∀ x ∈ [Val.int 2, .int 2, .int 3], lt 1 x (.int 2) = .ok false) := by
  constructor <;> simp [lt_int]

/-- C31 for arrays of characters, integers, numbers other than NaN, and arbitrary strings: sort
    returns a permutation of the elements in non-descending order; of strings with NUL characters
    the order sees the part before the first NUL.  (`sort` is a function of the value; that the
    original array is untouched is a statement about memory.)
    Missing for the full claim: NaN (`sort_nan_unsorted`) and double-precision complex numbers
    (`sort_cdouble_keeps_order`); for those of single precision see `sort_complex`. -/
theorem sort_sorted_partial (v : Val) (hx : ∀ x ∈ v.items, IsKey (visible x)) (n : Nat)
    (hn : 1 ≤ n) :
    ∃ r, sort n v = .ok (.arr r) ∧ r.Perm v.items ∧
      r.Pairwise (fun x y => ¬ KeyLt (visible y) (visible x)) := by
  obtain ⟨n, rfl⟩ : ∃ m, n = m + 1 := ⟨n - 1, by omega⟩
  have hv : ∀ a b, IsKey (visible a) → IsKey (visible b) →
      lt (n + 1) (visible a) (visible b) = lt (n + 1) a b := by
    have hc : ∀ s : Bytes, cstr (s.takeWhile (fun b => decide (b ≠ 0))) = cstr s := by
      intro s; exact StringFns.cstr_of_no_nul _ (StringFns.cstr_no_nul s)
    have ht : ∀ a, (visible a).type = a.type := by intro a; cases a <;> rfl
    intro a b ha hb
    by_cases hab : a.type = b.type
    · cases a <;> simp only [visible, IsKey] at ha <;> cases b <;>
        simp only [visible, IsKey] at hb <;> simp [Val.type] at hab <;> simp only [visible]
      rw [lt_chars, lt_chars, hc, hc]
    · rw [lt_type n hab, lt_type n (by rw [ht, ht]; exact hab), ht, ht]
  have hK : LtClass (n + 1) (fun v => IsKey (visible v)) (fun v => code (visible v)) :=
    fun a b ha hb => by rw [← hv a b ha hb, lt_key n ha hb]
  obtain ⟨r, h1, h2, h3⟩ := sortLoop_spec hK v.items [] hx (by simp) (by simp)
  have hso : sort (n + 1) v = .ok (.arr r) := by
    cases v
    case cdoubles xs =>
      cases xs with
      | nil => simp [Val.items, Val.type, Val.elems, sortLoop] at h1; simp [sort, sortCdouble, h1]
      | cons p xs => exact absurd (hx (.cdoubles [p]) (by simp [Val.items, Val.type, Val.elems])) (by simp [visible, IsKey])
    all_goals simp [sort, h1]
  refine ⟨r, hso, by simpa using h2, ?_⟩
  refine List.Pairwise.imp_of_mem ?_ h3
  intro x y hx' hy' h
  have kx := hx x (by simpa using h2.mem_iff.1 hx')
  have ky := hx y (by simpa using h2.mem_iff.1 hy')
  rw [keyLt_iff ky kx]
  exact not_lt.2 h

example : ∀ x ∈ (Val.ints [3, 1, 2]).items, IsKey (visible x) := by
  simp [Val.items, Val.type, Val.elems, IsKey, visible]

theorem single_lt {a b : Int} : [a] < [b] ↔ a < b := by
  constructor
  · intro h
    cases h with
    | rel h => exact h
    | cons h => cases h
  · exact fun h => .rel h

/-- C31 for complex numbers of single precision, ordered by their absolute value, as long as that is
    a number. -/
theorem sort_complex (xs : List (BitVec 32 × BitVec 32)) (hx : ∀ p ∈ xs, ∃ a, Ieee.val32 (cabsf p.1 p.2) = some a)
    (n : Nat) (hn : 1 ≤ n) :
    ∃ r : List (BitVec 32 × BitVec 32), sort n (.cfloats xs) = .ok (.arr (r.map fun p => .cfloat p.1 p.2)) ∧ r.Perm xs ∧
      r.Pairwise (fun p q => ∀ a b, Ieee.val32 (cabsf p.1 p.2) = some a → Ieee.val32 (cabsf q.1 q.2) = some b → a ≤ b) := by
  obtain ⟨n, rfl⟩ : ∃ m, n = m + 1 := ⟨n - 1, by omega⟩
  let K : Val → Prop := fun v => ∃ re im a, v = .cfloat re im ∧ Ieee.val32 (cabsf re im) = some a
  let cd : Val → List Int := fun v => match v with
    | .cfloat re im => match Ieee.val32 (cabsf re im) with
      | some a => [a]
      | none => []
    | _ => []
  have hK : LtClass (n + 1) K cd := by
    rintro _ _ ⟨re, im, a, rfl, ha⟩ ⟨re', im', a', rfl, ha'⟩
    simp only [lt, Val.type, cd, ha, ha', Ieee.lt, ne_eq, not_true_eq_false, if_false, Outcome.ok.injEq, decide_eq_decide]
    exact single_lt.symm
  obtain ⟨r, h1, h2, h3⟩ := sortLoop_spec hK (Val.cfloats xs).items [] (by
    intro x h
    simp only [Val.items, Val.type, Val.elems, if_pos, List.mem_map] at h
    obtain ⟨p, hp, rfl⟩ := h
    obtain ⟨a, ha⟩ := hx p hp
    exact ⟨_, _, a, rfl, ha⟩) (by simp) (by simp)
  have e : (Val.cfloats xs).items = xs.map fun p => Val.cfloat p.1 p.2 := by simp [Val.items, Val.type, Val.elems]
  rw [List.nil_append, e] at h2
  obtain ⟨l, hl, rfl⟩ : ∃ l : List (BitVec 32 × BitVec 32), l.Perm xs ∧ r = l.map fun p => Val.cfloat p.1 p.2 := by
    let g : Val → BitVec 32 × BitVec 32 := fun v => match v with
      | .cfloat re im => (re, im)
      | _ => (0, 0)
    refine ⟨r.map g, ?_, ?_⟩
    · have := h2.map g
      rwa [List.map_map, show (g ∘ fun p : BitVec 32 × BitVec 32 => Val.cfloat p.1 p.2) = id from rfl, List.map_id] at this
    · rw [List.map_map]
      conv_lhs => rw [← List.map_id r]
      refine List.map_congr_left fun v hv => ?_
      obtain ⟨p, -, rfl⟩ := List.mem_map.1 (h2.mem_iff.1 hv)
      rfl
  refine ⟨l, by simp [sort, h1], hl, ?_⟩
  rw [List.pairwise_map] at h3
  refine h3.imp ?_
  intro p q h a b ha hb
  simp only [cd, ha, hb] at h
  exact not_lt.1 fun hc => absurd (single_lt.2 hc) (not_lt.2 h)

theorem sortCdouble_appends (xs : List (BitVec 64 × BitVec 64)) : ∀ r : List Val, (∀ x ∈ r, x.type < 7) →
    sortCdouble r xs = .ok (r ++ xs.map fun p => .cdoubles [p]) := by
  induction xs with
  | nil => intro r _; simp [sortCdouble]
  | cons p xs ih =>
    intro r hr
    have hi : binaryCdouble r = .ok r.length := by
      unfold binaryCdouble
      split
      · next h => rw [h]
      · obtain ⟨c, e, -⟩ := binaryLoop_spec (fun pos =>
          match r[pos]? with
          | some x => ltCdoubleRef x
          | none => .ub .outOfBounds) r.length 0 r.length (by omega) (by omega) (by
            intro pos _ hp
            have := hr _ (List.getElem_mem hp)
            simp only [List.getElem?_eq_getElem hp, ltCdoubleRef]
            rw [if_pos (by omega)]
            simp [this, hp])
        exact congrArg (fun o : Outcome (Nat × Nat) => o >>= fun x => Outcome.ok x.1) e
    unfold sortCdouble
    rw [hi, Outcome.bind_ok]
    simp only [insertVar, gt_iff_lt, lt_self_iff_false, if_false, List.take_length, List.drop_length, Outcome.bind_ok]
    rw [ih _ (by
      intro x hx
      rcases List.mem_append.1 hx with h | h
      · exact hr x h
      · obtain rfl := List.mem_singleton.1 h
        exact (by decide : 0 < 7))]
    simp

/-- C31 fails for complex numbers of double precision: they are returned in the order they were in. -/
theorem sort_cdouble_keeps_order (xs : List (BitVec 64 × BitVec 64)) (n : Nat) :
    sort n (.cdoubles xs) = .ok (.arr (xs.map fun p => .cdoubles [p])) := by
  simp [sort, sortCdouble_appends xs [] (by simp)]

/-- C32 fails for complex numbers of double precision: none is found. -/
theorem index_cdouble_never (xs : List (BitVec 64 × BitVec 64)) (k : Val) (n : Nat) :
    index n (.cdoubles xs) k = .ok (-1) := by
  have hk : (7 : Nat) ≠ k.type := by cases k <;> simp [Val.type]
  have h : ∀ i, indexCdouble k i xs = .ok (-1) := by
    induction xs with
    | nil => intro i; rfl
    | cons p xs ih => intro i; rw [indexCdouble, if_pos hk]; exact ih _
  exact h 0

/-- C31 fails with NaN: sorting {1, NaN, NaN, NaN, 2} gives {2, NaN, NaN, NaN, 1}. -/
theorem sort_nan_unsorted (n : Nat) :
    sort (n + 1) (.doubles [0x3ff0000000000000, 0x7ff8000000000000, 0x7ff8000000000000,
      0x7ff8000000000000, 0x4000000000000000]) =
    .ok (.arr [.double 0x4000000000000000, .double 0x7ff8000000000000, .double 0x7ff8000000000000,
      .double 0x7ff8000000000000, .double 0x3ff0000000000000]) := by
  have h1 : Ieee.val64 0x3ff0000000000000#64 = some (2 ^ 1074) := by decide +kernel
  have h2 : Ieee.val64 0x7ff8000000000000#64 = none := by decide +kernel
  have h3 : Ieee.val64 0x4000000000000000#64 = some (2 ^ 1075) := by decide +kernel
  simp [sort, sortLoop, Val.items, Val.elems, Val.type, binary, binaryCount, binaryLoop_done,
    binaryLoop_true, binaryLoop_false, insertVar, lt_double, h1, h2, h3, Ieee.lt]

theorem indexLoop_spec (n : Nat) (k : Val) (hk : Plain k) (xs : List Val)
    (hx : ∀ x ∈ xs, Plain x ∧ depth x < n) (i : Nat) :
    (∃ (j : Nat) (h : j < xs.length), indexLoop n k i xs = .ok ((i + j : Nat) : Int) ∧ Same xs[j] k ∧
      ∀ (l : Nat) (hl : l < j), ¬ Same xs[l] k) ∨
    (indexLoop n k i xs = .ok (-1) ∧ ∀ x ∈ xs, ¬ Same x k) := by
  induction xs generalizing i with
  | nil => right; exact ⟨rfl, by simp⟩
  | cons x xs ih =>
    obtain ⟨hp, hd⟩ := hx x (by simp)
    have he := eq_decides_same x k hp hk n hd
    by_cases h : Same x k
    · left
      exact ⟨0, by simp, by simp [indexLoop, he.1.2 h], h, by simp⟩
    · rcases ih (fun y hy => hx y (by simp [hy])) (i + 1) with ⟨j, hj, h1, h2, h3⟩ | ⟨h1, h2⟩
      · left
        refine ⟨j + 1, by simpa using hj, ?_, h2, ?_⟩
        · simp only [indexLoop, he.2.2 h, Outcome.bind_ok, h1]
          simp; omega
        · intro l hl
          cases l with
          | zero => exact h
          | succ l => exact h3 l (by omega)
      · right
        refine ⟨by simp [indexLoop, he.2.2 h, h1], ?_⟩
        intro y hy
        rcases List.mem_cons.1 hy with rfl | hy
        · exact h
        · exact h2 y hy

/-- C32 for arrays (anything defined that is not a map) whose elements and probe contain neither
    nil nor complex doubles: `index` returns the least position of an equal element, or -1. -/
theorem index_array_partial (v k : Val) (hv : v.defined) (hm : ∀ ps, v ≠ .map ps)
    (hk : Plain k) (n : Nat) (hx : ∀ x ∈ v.items, Plain x ∧ depth x < n) :
    (∃ (j : Nat) (h : j < v.items.length), index n v k = .ok (j : Int) ∧ Same v.items[j] k ∧
      ∀ (l : Nat) (hl : l < j), ¬ Same v.items[l] k) ∨
    (index n v k = .ok (-1) ∧ ∀ x ∈ v.items, ¬ Same x k) := by
  have he : index n v k = indexLoop n k 0 v.items := by
    cases v <;> simp [Val.defined] at hv <;> try rfl
    · next xs =>
      cases xs with
      | nil => rfl
      | cons p xs => exact absurd (hx (.cdoubles [p]) (by simp [Val.items, Val.type, Val.elems])).1 (by
          intro h
          cases h with
          | array _ _ h1 h2 => exact h2 [p] rfl)
    exact absurd rfl (hm _)
  rw [he]
  simpa using indexLoop_spec n k hk v.items hx 0

example : (Val.ints [3, 1]).defined ∧ (∀ x ∈ (Val.ints [3, 1]).items, Plain x ∧ depth x < 1) := by
  refine ⟨rfl, ?_⟩
  simp [Val.items, Val.type, Val.elems, depth]
  exact ⟨.int 3, .int 1⟩

/-- C32 for maps with ordinary keys in ascending order: `index` returns the position of the key,
    or -1 if it is absent. -/
theorem index_map_partial (ps : List (Val × Val)) (k : Val) (hk : IsKey k) (hks : ∀ p ∈ ps, IsKey p.1)
    (hs : ps.Pairwise (fun p q => KeyLt p.1 q.1)) (n : Nat) (hn : 2 ≤ n) :
    (∃ (j : Nat) (h : j < ps.length), index n (.map ps) k = .ok (j : Int) ∧ SameKey ps[j].1 k) ∨
    (index n (.map ps) k = .ok (-1) ∧ ∀ p ∈ ps, ¬ SameKey p.1 k) := by
  obtain ⟨n, rfl⟩ : ∃ m, n = m + 2 := ⟨n - 2, by omega⟩
  have hK := isKey_class n
  have hwf : WF IsKey code ps := ⟨hks, List.Pairwise.imp_of_mem (fun {p q} h1 h2 h =>
    (keyLt_iff (hks p h1) (hks q h2)).1 h) hs⟩
  obtain ⟨p1, p2, rfl, h1, h2⟩ := hwf.split (code k)
  have hb := binary_map hK p1 p2 k hk hwf h1 h2
  have hne : ∀ p : Val × Val, IsKey p.1 → code p.1 ≠ code k → ¬ SameKey p.1 k :=
    fun p hp h => (sameKey_iff hp hk).not.2 h
  simp only [index, hb, Outcome.bind_ok]
  cases p2 with
  | nil =>
    right
    rw [List.getElem?_eq_none (by simp)]
    exact ⟨rfl, fun p hp => hne p (hks p hp) (ne_of_lt (h1 p (by simpa using hp)))⟩
  | cons q p2 =>
    have hq : (p1 ++ q :: p2)[p1.length]? = some q := by simp
    have hqk : IsKey q.1 := hks q (by simp)
    simp only [hq, eq, hK.neq_ok _ _ hqk hk, Outcome.bind_ok]
    by_cases he : code q.1 = code k
    · left
      exact ⟨p1.length, by simp, by simp [he], by simpa using (sameKey_iff hqk hk).2 he⟩
    · right
      have hlt : code k < code q.1 := lt_of_le_of_ne (not_lt.1 (h2 q (by simp))) (Ne.symm he)
      refine ⟨by simp [he], ?_⟩
      intro p hp
      refine hne p (hks p hp) ?_
      rcases List.mem_append.1 hp with hp | hp
      · exact ne_of_lt (h1 p hp)
      · rcases List.mem_cons.1 hp with rfl | hp
        · exact he
        · exact ne_of_gt (lt_trans hlt (hwf.tail_gt p hp))

example : ([(.chars [97], .int 1), (.chars [98], .nil)] : List (Val × Val)).Pairwise
    (fun p q => KeyLt p.1 q.1) := by
  simp only [List.pairwise_cons, List.mem_cons, List.not_mem_nil, or_false, forall_eq, KeyLt]
  exact ⟨.rel (by decide), by simp⟩

#print axioms eq_decides_same
#print axioms eq_equivalence_partial
#print axioms nil_eq_nil_undefined
#print axioms nan_not_reflexive
#print axioms cdouble_eq_diverges
#print axioms map_equality_ignores_keys
#print axioms map_equality_partial
#print axioms key_order_partial
#print axioms array_order_not_asymmetric
#print axioms array_prefix_incomparable
#print axioms nan_incomparable
#print axioms nul_strings_incomparable
#print axioms mixed_kinds
#print axioms mixed_total
#print axioms nil_compare_partial
#print axioms nil_order_undefined
#print axioms binary_lower_bound
#print axioms binary_partition_point
#print axioms sort_sorted_partial
#print axioms sort_complex
#print axioms sort_cdouble_keeps_order
#print axioms index_cdouble_never
#print axioms sort_nan_unsorted
#print axioms index_array_partial
#print axioms index_map_partial

end Libube.Order

import Verif.Model.Derived
import Verif.Props.Order

/-! # C175: `>`, `<=` and `>=` -/

namespace Libube.Order

open Val OrderSpec

/-- C175 for characters, integers, numbers that are not NaN and strings without NUL, also of different types: `<=` is "less
    or the same" and `>=` its converse, `<=` is a total order up to `==`, and exactly one of `<`, `==` and `>` holds.
    Missing: arrays, NaN and strings with NUL, where it fails (`arrays_neither_le_nor_ge`, `nan_le_and_ge`,
    `nul_le_and_ge`). -/
theorem derived_partial (a b c : Val) (ha : IsKey a) (hb : IsKey b) (hc : IsKey c) (n : Nat) (hn : 2 ≤ n) :
    (gt n a b = .ok true ↔ KeyLt b a) ∧ (gt n a b = .ok false ↔ ¬ KeyLt b a) ∧
    (le n a b = .ok true ↔ KeyLt a b ∨ SameKey a b) ∧ (le n a b = .ok false ↔ ¬ (KeyLt a b ∨ SameKey a b)) ∧
    (ge n a b = .ok true ↔ KeyLt b a ∨ SameKey a b) ∧ (ge n a b = .ok false ↔ ¬ (KeyLt b a ∨ SameKey a b)) ∧
    (le n a b = .ok true ∨ le n b a = .ok true) ∧
    (le n a b = .ok true → le n b c = .ok true → le n a c = .ok true) ∧
    ((le n a b = .ok true ∧ ge n a b = .ok true) ↔ eq n a b = .ok true) ∧
    (lt n a b = .ok true ∧ eq n a b = .ok false ∧ gt n a b = .ok false ∨
     lt n a b = .ok false ∧ eq n a b = .ok true ∧ gt n a b = .ok false ∨
     lt n a b = .ok false ∧ eq n a b = .ok false ∧ gt n a b = .ok true) := by
  obtain ⟨n, rfl⟩ : ∃ m, n = m + 2 := ⟨n - 2, by omega⟩
  simp only [eq, gt, le, ge, lt_key (n + 1) ha hb, lt_key (n + 1) hb ha,
    lt_key (n + 1) hc hb, lt_key (n + 1) hc ha, neq_key n ha hb, keyLt_iff ha hb, keyLt_iff hb ha,
    sameKey_iff ha hb, Outcome.bind_ok, Outcome.ok.injEq, decide_eq_true_eq, decide_eq_false_iff_not,
    Bool.not_eq_true', Bool.not_eq_false', not_not, not_lt]
  refine ⟨trivial, trivial, ?_, ?_, ?_, ?_, ?_, ?_, ?_, ?_⟩
  · exact le_iff_lt_or_eq
  · rw [← le_iff_lt_or_eq, not_le]
  · rw [@eq_comm _ (code a), le_iff_lt_or_eq]
  · rw [@eq_comm _ (code a), ← le_iff_lt_or_eq, not_le]
  · exact le_total _ _
  · exact fun h1 h2 => le_trans h1 h2
  · exact ⟨fun h => le_antisymm h.1 h.2, fun h => ⟨h.le, h.ge⟩⟩
  · rcases lt_trichotomy (code a) (code b) with h | h | h
    · exact .inl ⟨h, h.ne, h.le⟩
    · exact .inr (.inl ⟨h.ge, h, h.le⟩)
    · exact .inr (.inr ⟨h.le, h.ne', h⟩)

example : IsKey (.chars [97]) ∧ IsKey (.int (-3)) ∧ IsKey (.double 0x3ff0000000000000#64) :=
  ⟨by simp [IsKey], trivial, ⟨_, rfl⟩⟩

/-- C175 fails for arrays: of {1,5} and {2,3} neither is `<=` the other, and each is `>` the other. -/
theorem arrays_neither_le_nor_ge (n : Nat) :
    le (n + 2) (.ints [1, 5]) (.ints [2, 3]) = .ok false ∧ ge (n + 2) (.ints [1, 5]) (.ints [2, 3]) = .ok false ∧
    gt (n + 2) (.ints [1, 5]) (.ints [2, 3]) = .ok true ∧ gt (n + 2) (.ints [2, 3]) (.ints [1, 5]) = .ok true := by
  obtain ⟨h1, h2⟩ := array_order_not_asymmetric n
  simp only [le, ge, gt, h1, h2, Outcome.bind_ok, Bool.not_true, and_self]

/-- C175 fails for an array and a longer one it begins: both `<=` and `>=`, but not `==`. -/
theorem prefix_le_and_ge (n : Nat) :
    le (n + 2) (.ints [1]) (.ints [1, 2]) = .ok true ∧ ge (n + 2) (.ints [1]) (.ints [1, 2]) = .ok true ∧
    eq (n + 2) (.ints [1]) (.ints [1, 2]) = .ok false := by
  obtain ⟨h1, h2, h3⟩ := array_prefix_incomparable n
  simp only [le, ge, gt, h1, h2, h3, Outcome.bind_ok, Bool.not_false, and_self]

/-- C175 fails for NaN: it is both `<=` and `>=` 1, unlike the number it holds, but not `==`. -/
theorem nan_le_and_ge (n : Nat) : ∃ x y, le (n + 1) (.double x) (.double y) = .ok true ∧
    ge (n + 1) (.double x) (.double y) = .ok true ∧ eq (n + 1) (.double x) (.double y) = .ok false := by
  obtain ⟨x, y, h1, h2, h3⟩ := nan_incomparable n
  exact ⟨x, y, by simp only [le, ge, gt, h1, h2, h3, Outcome.bind_ok, Bool.not_false, and_self]⟩

/-- C175 fails for strings with NUL: "x\0a" is both `<=` and `>=` "x\0b", but not `==`. -/
theorem nul_le_and_ge (n : Nat) :
    le (n + 1) (.chars [120, 0, 97]) (.chars [120, 0, 98]) = .ok true ∧
    ge (n + 1) (.chars [120, 0, 97]) (.chars [120, 0, 98]) = .ok true ∧
    eq (n + 2) (.chars [120, 0, 97]) (.chars [120, 0, 98]) = .ok false := by
  obtain ⟨h1, h2, h3⟩ := nul_strings_incomparable n
  simp only [le, ge, gt, h1, h2, h3, Outcome.bind_ok, Bool.not_false, and_self]

/-- Between different kinds all of them follow the kinds, for all values. -/
theorem derived_mixed (a b : Val) (hab : kind a ≠ kind b) (n : Nat) :
    gt (n + 1) a b = .ok (decide (kind b < kind a)) ∧ le (n + 1) a b = .ok (decide (kind a < kind b)) ∧
    ge (n + 1) a b = .ok (decide (kind b < kind a)) := by
  have h1 := (mixed_kinds a b hab n).1
  have h2 := (mixed_kinds b a hab.symm n).1
  simp only [le, ge, gt, h1, h2, Outcome.bind_ok, true_and, Outcome.ok.injEq]
  constructor
  · rw [← decide_not]; exact decide_eq_decide.2 (by omega)
  · rw [← decide_not]; exact decide_eq_decide.2 (by omega)

example : kind (.int 3) ≠ kind (.chars [97]) := by decide

end Libube.Order

#print axioms Libube.Order.derived_partial
#print axioms Libube.Order.arrays_neither_le_nor_ge
#print axioms Libube.Order.prefix_le_and_ge
#print axioms Libube.Order.nan_le_and_ge
#print axioms Libube.Order.nul_le_and_ge
#print axioms Libube.Order.derived_mixed

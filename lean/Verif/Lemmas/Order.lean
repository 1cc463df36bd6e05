import Verif.Spec.Order
import Verif.Model.MapOps
import Verif.Lemmas.StringFns
import Mathlib.Data.List.Lex
import Mathlib.Tactic.Linarith

/-! # Helper lemmas on comparison -/

namespace Libube.Order

open Libube Libube.CString Libube.OrderSpec

theorem parts_iff (v : Val) (vs : List Val) : parts v = some vs ↔ v.hasHeap = true ∧ v.elems = vs := by
  cases v <;> simp [parts, Val.hasHeap, Val.elems]

theorem type_of_hasHeap {v : Val} (h : v.hasHeap = true) : v.type = 0 := by
  cases v <;> simp_all [Val.hasHeap, Val.type]

/-- Keys as elements of a linear order. -/
def code : Val → List Int
  | .chars s => 0 :: s.map (fun b => (b.toNat : Int))
  | .char c => [1, c.toInt8.toInt]
  | .int i => [2, i.toInt]
  | .long i => [3, i.toInt]
  | .float f => [4, (Ieee.val32 f).getD 0]
  | .double d => [5, (Ieee.val64 d).getD 0]
  | _ => []

theorem lt_def (a b : List Int) : a < b ↔ List.Lex (· < ·) a b := Iff.rfl

theorem cons_lt_cons (x y : Int) (a b : List Int) : x :: a < y :: b ↔ x < y ∨ (x = y ∧ a < b) := by
  simp only [lt_def]
  constructor
  · intro h
    cases h with
    | cons h => exact Or.inr ⟨rfl, h⟩
    | rel h => exact Or.inl h
  · rintro (h | ⟨rfl, h⟩)
    · exact .rel h
    · exact .cons h

theorem nil_not_lt_nil : ¬ ([] : List Int) < [] := by
  rw [lt_def]; intro h; cases h

theorem map_lt (s t : Bytes) :
    s.map (fun b => (b.toNat : Int)) < t.map (fun b => (b.toNat : Int)) ↔
      List.Lex (fun a b : UInt8 => a.toNat < b.toNat) s t := by
  induction s generalizing t with
  | nil =>
    cases t with
    | nil => simp only [List.map_nil]; constructor
             · intro h; exact absurd h nil_not_lt_nil
             · intro h; cases h
    | cons y t => simp only [List.map_nil, List.map_cons]
                  exact ⟨fun _ => .nil, fun _ => .nil⟩
  | cons x s ih =>
    cases t with
    | nil => simp only [List.map_nil, List.map_cons]
             constructor <;> (intro h; cases h)
    | cons y t =>
      simp only [List.map_cons, cons_lt_cons, ih]
      constructor
      · rintro (h | ⟨h, h'⟩)
        · exact .rel (by exact_mod_cast h)
        · have : x = y := by apply UInt8.toNat_inj.1; exact_mod_cast h
          subst this; exact .cons h'
      · intro h
        cases h with
        | cons h => exact Or.inr ⟨rfl, h⟩
        | rel h => exact Or.inl (by exact_mod_cast h)

theorem keyLt_iff {a b : Val} (ha : IsKey a) (hb : IsKey b) : KeyLt a b ↔ code a < code b := by
  cases a <;> simp only [IsKey] at ha <;> cases b <;> simp only [IsKey] at hb <;>
    simp only [KeyLt, code, kind, cons_lt_cons, nil_not_lt_nil, map_lt]
  all_goals try simp
  all_goals
    obtain ⟨x, hx⟩ := ha
    obtain ⟨y, hy⟩ := hb
    simp [hx, hy]

theorem sameKey_iff {a b : Val} (ha : IsKey a) (hb : IsKey b) : SameKey a b ↔ code a = code b := by
  cases a <;> simp only [IsKey] at ha <;> cases b <;> simp only [IsKey] at hb <;>
    simp only [SameKey, code]
  all_goals try simp
  case char.char x y =>
    constructor
    · rintro rfl; rfl
    · intro h
      exact UInt8.toBitVec_inj.1 (BitVec.eq_of_toInt_eq (by simpa [Int8.toInt] using h))
  case int.int x y => exact ⟨fun h => by rw [h], fun h => BitVec.eq_of_toInt_eq h⟩
  case long.long x y => exact ⟨fun h => by rw [h], fun h => BitVec.eq_of_toInt_eq h⟩
  case chars.chars s t =>
    constructor
    · rintro rfl; rfl
    · intro h
      refine List.map_injective_iff.2 ?_ h
      intro x y hxy
      exact UInt8.toNat_inj.1 (by simpa using hxy)
  all_goals
    obtain ⟨x, hx⟩ := ha
    obtain ⟨y, hy⟩ := hb
    simp [hx, hy, eq_comm]

theorem strcmp_lt (s t : Bytes) :
    strcmp s t < 0 ↔ List.Lex (fun a b : UInt8 => a.toNat < b.toNat) s t := by
  induction s generalizing t with
  | nil =>
    cases t with
    | nil => simp only [strcmp]; constructor
             · intro h; omega
             · intro h; cases h
    | cons y t => simp only [strcmp]; exact ⟨fun _ => .nil, fun _ => by omega⟩
  | cons x s ih =>
    cases t with
    | nil => simp only [strcmp]; constructor
             · intro h; omega
             · intro h; cases h
    | cons y t =>
      simp only [strcmp]
      by_cases hxy : x = y
      · subst hxy
        rw [if_pos rfl, ih]
        constructor
        · exact .cons
        · intro h
          cases h with
          | cons h => exact h
          | rel h => omega
      · rw [if_neg hxy]
        by_cases hlt : x < y
        · rw [if_pos hlt]
          exact ⟨fun _ => .rel (UInt8.lt_iff_toNat_lt.1 hlt), fun _ => by omega⟩
        · rw [if_neg hlt]
          constructor
          · intro h; omega
          · intro h
            cases h with
            | cons h => exact absurd rfl hxy
            | rel h => exact absurd (UInt8.lt_iff_toNat_lt.2 h) hlt

theorem ieee_lt_true (a b : Option Int) :
    Ieee.lt a b = true ↔ ∃ x y, a = some x ∧ b = some y ∧ x < y := by
  cases a <;> cases b <;> simp [Ieee.lt]

theorem ieee_eq_true (a b : Option Int) :
    Ieee.eq a b = true ↔ ∃ x, a = some x ∧ b = some x := by
  cases a <;> cases b <;> simp [Ieee.eq, eq_comm]

theorem neqLoop_chars (n : Nat) (s t : Bytes) (h : s.length = t.length) :
    neqLoop (neq (n + 1)) (s.map .char) (t.map .char) = .ok (decide (s ≠ t)) := by
  induction s generalizing t with
  | nil =>
    cases t with
    | nil => rfl
    | cons => simp at h
  | cons x s ih =>
    cases t with
    | nil => simp at h
    | cons y t =>
      simp only [List.length_cons, Nat.add_right_cancel_iff] at h
      have e : neq (n + 1) (.char x) (.char y) = .ok (x != y) := by
        simp [neq, Val.type, Val.size]
      simp only [List.map_cons, neqLoop, e, Outcome.bind_ok, ih t h]
      by_cases hxy : x = y <;> simp [hxy]

theorem neq_char (n x y) : neq (n + 1) (.char x) (.char y) = .ok (x != y) := by
  simp [neq, Val.type, Val.size]
theorem neq_int (n x y) : neq (n + 1) (.int x) (.int y) = .ok (x != y) := by
  simp [neq, Val.type, Val.size]
theorem neq_long (n x y) : neq (n + 1) (.long x) (.long y) = .ok (x != y) := by
  simp [neq, Val.type, Val.size]
theorem neq_float (n x y) : neq (n + 1) (.float x) (.float y) =
    .ok (!Ieee.eq (Ieee.val32 x) (Ieee.val32 y)) := by
  simp [neq, Val.type, Val.size]
theorem neq_double (n x y) : neq (n + 1) (.double x) (.double y) =
    .ok (!Ieee.eq (Ieee.val64 x) (Ieee.val64 y)) := by
  simp [neq, Val.type, Val.size]
theorem neq_cfloat (n x y x' y') : neq (n + 1) (.cfloat x y) (.cfloat x' y') =
    .ok (!(Ieee.eq (Ieee.val32 x) (Ieee.val32 x') && Ieee.eq (Ieee.val32 y) (Ieee.val32 y'))) := by
  simp [neq, Val.type, Val.size]
theorem neq_type (n : Nat) {a b : Val} (h : a.type ≠ b.type) : neq (n + 1) a b = .ok true := by
  unfold neq; rw [if_pos h]
theorem neq_heaps (n : Nat) {a b : Val} (ha : a.hasHeap = true) (hb : b.hasHeap = true) :
    neq (n + 1) a b = if a.elems.length ≠ b.elems.length then .ok true
      else neqLoop (neq n) a.elems b.elems := by
  have h1 := type_of_hasHeap ha
  have h2 := type_of_hasHeap hb
  unfold neq; rw [if_neg (by rw [h1, h2]; simp)]
  simp only [Val.size, h1, h2, if_true]
  split
  · rfl
  · cases a <;> simp [Val.hasHeap] at ha ⊢
theorem lt_char (n x y) : lt (n + 1) (.char x) (.char y) =
    .ok (decide (x.toBitVec.toInt < y.toBitVec.toInt)) := by simp [lt, Val.type]
theorem lt_int (n x y) : lt (n + 1) (.int x) (.int y) = .ok (decide (x.toInt < y.toInt)) := by
  simp [lt, Val.type]
theorem lt_long (n x y) : lt (n + 1) (.long x) (.long y) = .ok (decide (x.toInt < y.toInt)) := by
  simp [lt, Val.type]
theorem lt_float (n x y) : lt (n + 1) (.float x) (.float y) =
    .ok (Ieee.lt (Ieee.val32 x) (Ieee.val32 y)) := by simp [lt, Val.type]
theorem lt_double (n x y) : lt (n + 1) (.double x) (.double y) =
    .ok (Ieee.lt (Ieee.val64 x) (Ieee.val64 y)) := by simp [lt, Val.type]
theorem lt_chars (n x y) : lt (n + 1) (.chars x) (.chars y) =
    .ok (decide (strcmp (cstr x) (cstr y) < 0)) := by simp [lt, Val.type, Val.hasHeap]
theorem lt_type (n : Nat) {a b : Val} (h : a.type ≠ b.type) :
    lt (n + 1) a b = .ok (decide (a.type < b.type)) := by
  unfold lt; rw [if_pos h]

theorem lt_key' (n : Nat) {a b : Val} (ha : IsKey a) (hb : IsKey b) :
    ∃ r, lt (n + 1) a b = .ok r ∧ (r = true ↔ KeyLt a b) := by
  cases a <;> simp only [IsKey] at ha <;> cases b <;> simp only [IsKey] at hb
  all_goals try (rw [lt_type n (by first | (simp [Val.type]; done) | fail)]; refine ⟨_, rfl, ?_⟩; simp [Val.type, KeyLt, kind]; done)
  all_goals
    simp only [lt_char, lt_int, lt_long, lt_float, lt_double, lt_chars]
    refine ⟨_, rfl, ?_⟩
    simp only [KeyLt]
  case float.float => rw [ieee_lt_true]
  case double.double => rw [ieee_lt_true]
  case chars.chars s t =>
    rw [StringFns.cstr_of_no_nul s ha, StringFns.cstr_of_no_nul t hb, decide_eq_true_eq, strcmp_lt]
  all_goals simp [Int8.toInt]

theorem neq_key' (n : Nat) {a b : Val} (ha : IsKey a) (hb : IsKey b) :
    ∃ r, neq (n + 2) a b = .ok r ∧ (r = true ↔ ¬ SameKey a b) := by
  cases a <;> simp only [IsKey] at ha <;> cases b <;> simp only [IsKey] at hb
  all_goals try (rw [neq_type (n + 1) (by first | (simp [Val.type]; done) | fail)]; refine ⟨_, rfl, ?_⟩; simp [SameKey]; done)
  case chars.chars s t =>
    rw [neq_heaps (n + 1) rfl rfl]
    simp only [Val.elems, List.length_map, SameKey]
    by_cases h : s.length = t.length
    · rw [if_neg (by simp [h]), neqLoop_chars n s t h]
      exact ⟨_, rfl, by simp⟩
    · have : s ≠ t := fun hc => h (by rw [hc])
      exact ⟨true, by simp [h], by simp [this]⟩
  all_goals
    simp only [neq_char, neq_int, neq_long, neq_float, neq_double]
    refine ⟨_, rfl, ?_⟩
    simp only [SameKey, ← ieee_eq_true]
    simp

theorem lt_key (n : Nat) {a b : Val} (ha : IsKey a) (hb : IsKey b) :
    lt (n + 1) a b = .ok (decide (code a < code b)) := by
  obtain ⟨r, h1, h2⟩ := lt_key' n ha hb
  rw [keyLt_iff ha hb] at h2
  rw [h1]; congr 1
  rw [Bool.eq_iff_iff, h2, decide_eq_true_eq]

theorem neq_key (n : Nat) {a b : Val} (ha : IsKey a) (hb : IsKey b) :
    neq (n + 2) a b = .ok (decide (code a ≠ code b)) := by
  obtain ⟨r, h1, h2⟩ := neq_key' n ha hb
  rw [sameKey_iff ha hb] at h2
  rw [h1]; congr 1
  rw [Bool.eq_iff_iff, h2, decide_eq_true_eq]

end Libube.Order

import Verif.Lemmas.Order

/-! # Helper lemmas on equality of nested values -/

namespace Libube.Order

open Libube Libube.CString Libube.OrderSpec

theorem le_foldr_max (l : List Nat) (x : Nat) (h : x ∈ l) : x ≤ l.foldr max 0 := by
  induction l with
  | nil => simp at h
  | cons y l ih =>
    simp only [List.foldr_cons]
    rcases List.mem_cons.1 h with rfl | h
    · exact Nat.le_max_left _ _
    · exact le_trans (ih h) (Nat.le_max_right _ _)

theorem depth_elem (v x : Val) (hv : ∀ xs, v ≠ .cdoubles xs) (hx : x ∈ v.elems) : depth x < depth v := by
  cases v <;> simp only [Val.elems, List.not_mem_nil, List.mem_map] at hx
  case chars => obtain ⟨_, _, rfl⟩ := hx; simp [depth]
  case ints => obtain ⟨_, _, rfl⟩ := hx; simp [depth]
  case longs => obtain ⟨_, _, rfl⟩ := hx; simp [depth]
  case floats => obtain ⟨_, _, rfl⟩ := hx; simp [depth]
  case doubles => obtain ⟨_, _, rfl⟩ := hx; simp [depth]
  case cfloats => obtain ⟨_, _, rfl⟩ := hx; simp [depth]
  case cdoubles xs => exact absurd rfl (hv xs)
  case arr xs =>
    rw [depth]
    have := le_foldr_max (xs.attach.map (fun x => depth x.1)) (depth x) (by
      rw [List.mem_map]; exact ⟨⟨x, hx⟩, by simp, rfl⟩)
    omega
  case map ps =>
    obtain ⟨p, hp, rfl⟩ := hx
    rw [depth]
    have := le_foldr_max (ps.attach.map (fun p => depth p.1.2)) (depth p.2) (by
      rw [List.mem_map]; exact ⟨⟨p, hp⟩, by simp, rfl⟩)
    omega

theorem Plain.type_zero {v : Val} (h : Plain v) (ht : v.type = 0) :
    v.hasHeap = true ∧ (∀ xs, v ≠ .cdoubles xs) ∧ ∀ x ∈ v.elems, Plain x := by
  cases h with
  | array _ vs hp hc he =>
    obtain ⟨h1, h2⟩ := (parts_iff v vs).1 hp
    exact ⟨h1, hc, by rw [h2]; exact he⟩
  | _ => simp [Val.type] at ht

theorem same_type {a b : Val} (h : Same a b) : a.type = b.type := by
  cases h with
  | array us vs h1 h2 h3 h4 =>
    rename_i us' vs'
    rw [type_of_hasHeap ((parts_iff _ _).1 ‹parts a = some _›).1,
      type_of_hasHeap ((parts_iff _ _).1 ‹parts b = some _›).1]
  | _ => rfl

theorem same_heaps {a b : Val} (ha : a.hasHeap = true) (hb : b.hasHeap = true) :
    Same a b ↔ a.elems.length = b.elems.length ∧
      ∀ (i : Nat) (h : i < a.elems.length) (h' : i < b.elems.length), Same a.elems[i] b.elems[i] := by
  constructor
  · intro h
    cases h with
    | array _ _ us vs hu hv hl hs =>
      obtain ⟨_, rfl⟩ := (parts_iff _ _).1 hu
      obtain ⟨_, rfl⟩ := (parts_iff _ _).1 hv
      exact ⟨hl, hs⟩
    | _ => simp [Val.hasHeap] at ha
  · rintro ⟨hl, hs⟩
    exact .array a b _ _ ((parts_iff _ _).2 ⟨ha, rfl⟩) ((parts_iff _ _).2 ⟨hb, rfl⟩) hl hs

theorem neqLoop_spec (f : Val → Val → Outcome Bool) (us vs : List Val) (hl : us.length = vs.length)
    (hf : ∀ u ∈ us, ∀ v ∈ vs, ∃ r, f u v = .ok r ∧ (r = false ↔ Same u v)) :
    ∃ r, neqLoop f us vs = .ok r ∧ (r = false ↔
      ∀ (i : Nat) (h : i < us.length) (h' : i < vs.length), Same us[i] vs[i]) := by
  induction us generalizing vs with
  | nil => exact ⟨false, rfl, by simp⟩
  | cons u us ih =>
    cases vs with
    | nil => simp at hl
    | cons v vs =>
      obtain ⟨r, hr1, hr2⟩ := hf u (by simp) v (by simp)
      obtain ⟨r', hr1', hr2'⟩ := ih vs (by simpa using hl)
        (fun a ha b hb => hf a (by simp [ha]) b (by simp [hb]))
      have key : (∀ (i : Nat) (h : i < (u :: us).length) (h' : i < (v :: vs).length),
          Same (u :: us)[i] (v :: vs)[i]) ↔ Same u v ∧
          ∀ (i : Nat) (h : i < us.length) (h' : i < vs.length), Same us[i] vs[i] := by
        constructor
        · intro h
          refine ⟨h 0 (by simp) (by simp), fun i h1 h2 => ?_⟩
          exact h (i + 1) (by simpa using h1) (by simpa using h2)
        · rintro ⟨h0, h⟩ i h1 h2
          cases i with
          | zero => exact h0
          | succ i => exact h i (by simpa using h1) (by simpa using h2)
      cases r with
      | true =>
        refine ⟨true, by simp [neqLoop, hr1], ?_⟩
        rw [key]
        have : ¬ Same u v := fun h => by simpa using hr2.2 h
        simp [this]
      | false =>
        refine ⟨r', by simp [neqLoop, hr1, hr1'], ?_⟩
        rw [key, hr2']
        have : Same u v := hr2.1 rfl
        simp [this]

/-- On values without nil and complex doubles, `!=` decides `Same`. -/
theorem neq_plain (n : Nat) : ∀ (a b : Val), Plain a → Plain b → depth a < n →
    ∃ r, neq n a b = .ok r ∧ (r = false ↔ Same a b) := by
  induction n with
  | zero => intro a b _ _ h; omega
  | succ n ih =>
    intro a b ha hb hd
    by_cases ht : a.type = b.type
    swap
    · refine ⟨true, neq_type n ht, ?_⟩
      simp only [Bool.true_eq_false, false_iff]
      exact fun h => ht (same_type h)
    by_cases h0 : a.type = 0
    · obtain ⟨ha1, ha2, ha3⟩ := Plain.type_zero ha h0
      obtain ⟨hb1, hb2, hb3⟩ := Plain.type_zero hb (ht ▸ h0)
      rw [neq_heaps n ha1 hb1, same_heaps ha1 hb1]
      by_cases hl : a.elems.length = b.elems.length
      · rw [if_neg (by simpa using hl)]
        obtain ⟨r, h1, h2⟩ := neqLoop_spec (neq n) a.elems b.elems hl (fun u hu v hv =>
          ih u v (ha3 u hu) (hb3 v hv) (by have := depth_elem a u ha2 hu; omega))
        exact ⟨r, h1, by rw [h2]; simp [hl]⟩
      · exact ⟨true, by simp [hl], by simp [hl]⟩
    · clear ih ha hb
      cases a <;> simp only [Val.type, not_true_eq_false] at h0 <;>
        cases b <;> simp [Val.type] at ht
      case char.char x y =>
        refine ⟨_, neq_char n x y, ?_⟩
        constructor
        · intro h; have : x = y := by simpa using h
          subst this; exact .char x
        · intro h
          cases h with
          | char => simp
          | array _ _ _ _ h => simp [parts] at h
      case int.int x y =>
        refine ⟨_, neq_int n x y, ?_⟩
        constructor
        · intro h; have : x = y := by simpa using h
          subst this; exact .int x
        · intro h
          cases h with
          | int => simp
          | array _ _ _ _ h => simp [parts] at h
      case long.long x y =>
        refine ⟨_, neq_long n x y, ?_⟩
        constructor
        · intro h; have : x = y := by simpa using h
          subst this; exact .long x
        · intro h
          cases h with
          | long => simp
          | array _ _ _ _ h => simp [parts] at h
      case float.float x y =>
        refine ⟨_, neq_float n x y, ?_⟩
        rw [Bool.not_eq_false', ieee_eq_true]
        constructor
        · rintro ⟨z, h1, h2⟩; exact .float x y z h1 h2
        · intro h
          cases h with
          | float _ _ z h1 h2 => exact ⟨z, h1, h2⟩
          | array _ _ _ _ h => simp [parts] at h
      case double.double x y =>
        refine ⟨_, neq_double n x y, ?_⟩
        rw [Bool.not_eq_false', ieee_eq_true]
        constructor
        · rintro ⟨z, h1, h2⟩; exact .double x y z h1 h2
        · intro h
          cases h with
          | double _ _ z h1 h2 => exact ⟨z, h1, h2⟩
          | array _ _ _ _ h => simp [parts] at h
      case cfloat.cfloat x y x' y' =>
        refine ⟨_, neq_cfloat n x y x' y', ?_⟩
        rw [Bool.not_eq_false', Bool.and_eq_true, ieee_eq_true, ieee_eq_true]
        constructor
        · rintro ⟨⟨z, h1, h2⟩, w, h3, h4⟩; exact .cfloat x y x' y' z w h1 h2 h3 h4
        · intro h
          cases h with
          | cfloat _ _ _ _ z w h1 h2 h3 h4 => exact ⟨⟨z, h1, h2⟩, w, h3, h4⟩
          | array _ _ _ _ h => simp [parts] at h

theorem same_refl {a : Val} (h : NoNaN a) : Same a a := by
  induction h with
  | char x => exact .char x
  | int x => exact .int x
  | long x => exact .long x
  | float x a h => exact .float x x a h h
  | double x a h => exact .double x x a h h
  | cfloat x y a b h1 h2 => exact .cfloat x y x y a b h1 h1 h2 h2
  | array v vs hp hv ih => exact .array v v vs vs hp hp rfl (fun i h _ => ih _ (List.getElem_mem h))

theorem same_symm {a b : Val} (h : Same a b) : Same b a := by
  induction h with
  | char x => exact .char x
  | int x => exact .int x
  | long x => exact .long x
  | float x y a h h' => exact .float y x a h' h
  | double x y a h h' => exact .double y x a h' h
  | cfloat x y x' y' a b h1 h2 h3 h4 => exact .cfloat x' y' x y a b h2 h1 h4 h3
  | array u v us vs hu hv hl hs ih => exact .array v u vs us hv hu hl.symm (fun i h h' => ih i h' h)

theorem same_trans {a b c : Val} (h : Same a b) (h' : Same b c) : Same a c := by
  induction h generalizing c with
  | char x => exact h'
  | int x => exact h'
  | long x => exact h'
  | float x y a h1 h2 =>
    cases h' with
    | float _ z b h3 h4 => rw [h2] at h3; injection h3 with h3; subst h3; exact .float x z a h1 h4
    | array _ _ _ _ h => simp [parts] at h
  | double x y a h1 h2 =>
    cases h' with
    | double _ z b h3 h4 => rw [h2] at h3; injection h3 with h3; subst h3; exact .double x z a h1 h4
    | array _ _ _ _ h => simp [parts] at h
  | cfloat x y x' y' a b h1 h2 h3 h4 =>
    cases h' with
    | cfloat _ _ z w c d h5 h6 h7 h8 =>
      rw [h2] at h5; injection h5 with h5; subst h5
      rw [h4] at h7; injection h7 with h7; subst h7
      exact .cfloat x y z w a b h1 h6 h3 h8
    | array _ _ _ _ h => simp [parts] at h
  | array u v us vs hu hv hl hs ih =>
    cases h' with
    | array _ w' vs' ws hv' hw hl' hs' =>
      rw [hv] at hv'; injection hv' with hv'; subst hv'
      exact .array u _ us ws hu hw (hl.trans hl') (fun i h1 h2 => ih i h1 (hl ▸ h1) (hs' i (hl ▸ h1) h2))
    | _ => simp [parts] at hv

end Libube.Order

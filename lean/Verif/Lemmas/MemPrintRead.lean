import Verif.Spec.MemPrintRead
import Verif.Lemmas.StringFns

/-! # The text of data in memory is that of the value (C169) -/

namespace Libube.MemProps

open Mem MemSpec CString

variable {α : Type}

theorem joined_dense : ∀ ts : List Bytes, [91] ++ joined [44, 32] ts ++ [93] = Json.showDense ts
  | [] => rfl
  | t :: ts => by
    have h : ∀ (us : List Bytes) (t : Bytes), joined [44, 32] (t :: us) = t ++ us.flatMap (fun y => [44, 32] ++ y) := by
      intro us
      induction us with
      | nil => intro t; simp [joined]
      | cons u us ih => intro t; rw [joined, ih]; simp
    rw [h, Json.showDense]
    simp

theorem joined_items {ds : List Bytes} {vs : List Val} {ind : Nat} (hl : ds.length = vs.length)
    (h : ∀ (i : Nat) (t : Bytes) (v : Val), ds[i]? = some t → vs[i]? = some v → t = Json.format (ind + 2) v) :
    joined [44] (ds.map fun t => line (ind + 2) ++ t) ++ [10] = [10] ++ Json.formatItems ind vs := by
  induction ds generalizing vs with
  | nil => cases vs with
    | nil => rfl
    | cons => simp at hl
  | cons t ts ih => cases vs with
    | nil => simp at hl
    | cons v vs =>
      have h0 := h 0 t v rfl rfl
      have ih := ih (vs := vs) (by simpa using hl) fun i u w hu hw => h (i + 1) u w (by simpa using hu) (by simpa using hw)
      cases ts with
      | nil => cases vs with
        | nil => simp [joined, Json.formatItems, line, Json.spaces, h0]
        | cons => simp at hl
      | cons u ts => cases vs with
        | nil => simp at hl
        | cons w vs =>
          rw [List.map_cons, List.map_cons, joined, ← List.map_cons, Json.formatItems, List.append_assoc, ih, h0]
          simp [line, Json.spaces]

theorem joined_members {ds : List (Bytes × Bytes)} {vs : List (Val × Val)} {ind : Nat} (hl : ds.length = vs.length)
    (h : ∀ (i : Nat) (t : Bytes × Bytes) (v : Val × Val), ds[i]? = some t → vs[i]? = some v → t = (Json.format 0 v.1, Json.format (ind + 2) v.2)) :
    joined [44] (ds.map fun t => line (ind + 2) ++ t.1 ++ [58, 32] ++ t.2) = Json.formatMembers ind vs := by
  induction ds generalizing vs with
  | nil => cases vs with
    | nil => rfl
    | cons => simp at hl
  | cons t ts ih => cases vs with
    | nil => simp at hl
    | cons v vs =>
      have h0 := h 0 t v rfl rfl
      have ih := ih (vs := vs) (by simpa using hl) fun i u w hu hw => h (i + 1) u w (by simpa using hu) (by simpa using hw)
      cases ts with
      | nil => cases vs with
        | nil => simp [joined, Json.formatMembers, line, Json.spaces, h0]
        | cons => simp at hl
      | cons u ts => cases vs with
        | nil => simp at hl
        | cons w vs =>
          rw [List.map_cons] at ih
          rw [List.map_cons, List.map_cons, joined, ih, Json.formatMembers, h0]
          simp [line, Json.spaces]

/-- The text in memory is the text of the value. -/
theorem text_format {p : Printer α} {N : Numbers α} (hp : WritesAs p N) {d : Data α} {v : Val} (h : Means N d v) (ind : Nat) : d.text p ind = Json.format ind v := by
  induction h generalizing ind with
  | nil => simp [Data.text, Json.format]
  | char x => simp [Data.text, Json.format, hp.char]
  | int x => simp [Data.text, Json.format, hp.int]
  | long x => simp [Data.text, Json.format, hp.long]
  | float x => simp [Data.text, Json.format, hp.float]
  | double x => simp [Data.text, Json.format, hp.double]
  | cfloat x => simp [Data.text, Json.format, hp.cfloat]
  | str xs hx =>
    rw [Data.text, Json.format, StringFns.cstr_of_no_nul]
    · have : xs.flatMap (p.num .char) = xs.map N.char := by
        rw [show p.num .char = fun x => [N.char x] from funext hp.char, List.map_eq_flatMap]
      rw [this]
      simp
    · intro hb
      obtain ⟨x, hx', e⟩ := List.mem_map.1 hb
      exact hx x hx' e
  | ints xs => rw [Data.text, Json.format, joined_dense, List.map_map, show p.num .int = _ from funext hp.int]; rfl
  | longs xs => rw [Data.text, Json.format, joined_dense, List.map_map, show p.num .long = _ from funext hp.long]; rfl
  | floats xs => rw [Data.text, Json.format, joined_dense, List.map_map, show p.num .float = _ from funext hp.float]; rfl
  | doubles xs => rw [Data.text, Json.format, joined_dense, List.map_map, show p.num .double = _ from funext hp.double]; rfl
  | cfloats xs => rw [Data.text, Json.format, joined_dense, List.map_map, show p.num .cfloat = _ from funext hp.cfloat]; rfl
  | cdouble a x => simp [Data.text, Json.format, hp.cdouble]
  | list ds vs hl _ ih =>
    rw [Data.text, Json.format, block]
    have := joined_items (ds := ds.attach.map fun d => d.1.text p (ind + 2)) (vs := vs) (ind := ind) (by simpa using hl) fun i t v ht hv => by
      simp only [List.getElem?_map, Option.map_eq_some_iff] at ht
      obtain ⟨d, hd, rfl⟩ := ht
      refine ih i d.1 v ?_ hv (ind + 2)
      have h := congrArg (Option.map Subtype.val) hd
      rw [← List.getElem?_map, List.attach_map_subtype_val] at h
      exact h
    rw [show line ind = [10] ++ List.replicate ind 32 from rfl, ← List.append_assoc, List.append_assoc [91], this]
    simp [Json.spaces]
  | map ds vs hl _ _ ih1 ih2 =>
    cases ds with
    | nil => cases vs with
      | nil => simp [Data.text, Json.format]
      | cons => simp at hl
    | cons d ds => cases vs with
      | nil => simp at hl
      | cons v vs =>
        rw [Data.text, Json.format]
        have := joined_members (ds := (d :: ds).attach.map fun d => (d.1.1.text p 0, d.1.2.text p (ind + 2))) (vs := v :: vs) (ind := ind) (by simpa using hl) fun i t w ht hw => by
          simp only [List.getElem?_map, Option.map_eq_some_iff] at ht
          obtain ⟨e, he, rfl⟩ := ht
          have he' : (d :: ds)[i]? = some e.1 := by
            have h := congrArg (Option.map Subtype.val) he
            rw [← List.getElem?_map, List.attach_map_subtype_val] at h
            exact h
          rw [ih1 i e.1 w he' hw 0, ih2 i e.1 w he' hw (ind + 2)]
        rw [List.map_map] at this
        rw [← this]
        simp [line, Json.spaces, Function.comp_def]

end Libube.MemProps

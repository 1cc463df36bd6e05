import Verif.Model.MemName
import Verif.Lemmas.MemString
import Verif.Spec.Backtrace

/-! # C134: names of types

`Deno s.mem v w` says that the var `v` is `w` or a reference to an element that is `w`. -/

namespace Libube.MemProps

open Mem CString
open BacktraceSpec (ascii)

/-- What the types of numbers and of elements are called. -/
def TypeName : Kind → String
  | .char => "char"
  | .int => "int"
  | .long => "long"
  | .float => "float"
  | .double => "double"
  | .cfloat => "cfloat"
  | .cdouble => "cdouble"
  | .var => "var"
  | .pair => "pair"

theorem kindName_eq (k : Kind) : kindName k = ascii (TypeName k) := by cases k <;> decide

theorem typeV_num {s : State α} {v : V α} {k : Kind} {x : α} (h : Deno s.mem v (.num k x)) : typeV v s = .ok (some k) s := by
  obtain ⟨u, h1, h2⟩ := derefV_tot h
  unfold typeV
  rcases h2 with rfl | ⟨b, j, k', n, cells, y, rfl, ⟨rc, hb⟩, -, he⟩
  · rw [bind_eq h1]; rfl
  · rw [bind_eq h1]
    simp only
    rw [bind_eq (obj_eq hb)]
    cases he; rfl

theorem typeV_arr {s : State α} {v : V α} {a : Addr} (h : Deno s.mem v (.arr a)) : typeV v s = .ok none s := by
  obtain ⟨u, h1, h2⟩ := derefV_tot h
  unfold typeV
  rcases h2 with rfl | ⟨b, j, k', n, cells, y, -, -, -, he⟩
  · rw [bind_eq h1]; rfl
  · cases he

theorem typeV_nil {s : State α} {v : V α} (h : Deno s.mem v .nil) : typeV v s = .ok none s ∧ heapOf v s = .ok none s := by
  obtain ⟨u, h1, h2⟩ := derefV_tot h
  unfold typeV heapOf
  rcases h2 with rfl | ⟨b, j, k', n, cells, y, -, -, -, he⟩
  · rw [bind_eq h1, bind_eq h1]; exact ⟨rfl, rfl⟩
  · cases he

/-- C134 for everything but nil: `atypeStr` of a number is its type, that of an array `array[...]` with the type of its elements, and nothing is changed.
    Missing for the full claim: nil, for which it is false (`nil_type_undefined`). -/
theorem type_name_partial {s : State α} {v w : V α} (h : Deno s.mem v w) :
    (∀ k x, w = .num k x → atypeStr v s = .ok (ascii (TypeName k)) s) ∧
    (∀ a o, w = .arr a → s.mem[a]? = some (some o) → atypeStr v s = .ok (ascii ("array[" ++ TypeName o.kind ++ "]")) s) := by
  refine ⟨?_, ?_⟩
  · rintro k x rfl
    unfold atypeStr typeStr
    rw [bind_eq (typeV_num h)]
    simp only
    rw [bind_eq (typeV_num h), ← kindName_eq]
    rfl
  · rintro a o rfl ho
    unfold atypeStr
    rw [bind_eq (typeV_arr h)]
    simp only
    rw [bind_eq (heapOf_deno h)]
    simp only
    rw [bind_eq (obj_eq ho)]
    have : arrayName ++ [91] ++ kindName o.kind ++ [93] = ascii ("array[" ++ TypeName o.kind ++ "]") := by
      cases o.kind <;> decide
    rw [this]
    rfl

example : Deno (α := Nat) [some ⟨.float, 1, 1, [.raw (some 3)]⟩] (.ref 0 0) (.num .float 3) :=
  .num ⟨_, rfl⟩ (by unfold IsNum; decide) (by decide) rfl

/-- Different types have different names, and no number is named as an array is. -/
theorem type_names_differ (k k' : Kind) :
    (ascii (TypeName k) = ascii (TypeName k') → k = k') ∧
    (ascii ("array[" ++ TypeName k ++ "]") = ascii ("array[" ++ TypeName k' ++ "]") → k = k') ∧
    ascii (TypeName k) ≠ ascii ("array[" ++ TypeName k' ++ "]") := by
  cases k <;> cases k' <;> decide

/-- C134 is false for nil: `atypeStr` follows a null pointer. -/
theorem nil_type_undefined {s : State α} {v : V α} (h : Deno s.mem v .nil) : atypeStr v s = .ub .nullDeref := by
  unfold atypeStr
  rw [bind_eq (typeV_nil h).1]
  simp only
  rw [bind_eq (typeV_nil h).2]
  rfl

example : Deno (α := Nat) [] .nil .nil := .self (by simp [V.IsRef])

/-- `typeStr` knows nil and arrays as `array`. -/
theorem type_outer_name {s : State α} {v w : V α} (h : Deno s.mem v w) :
    (∀ k x, w = .num k x → typeStr v s = .ok (ascii (TypeName k)) s) ∧
    ((w = .nil ∨ ∃ a, w = .arr a) → typeStr v s = .ok (ascii "array") s) := by
  refine ⟨?_, ?_⟩
  · rintro k x rfl
    unfold typeStr
    rw [bind_eq (typeV_num h), ← kindName_eq]
    rfl
  · have e : arrayName = ascii "array" := by decide
    rintro (rfl | ⟨a, rfl⟩)
    · unfold typeStr
      rw [bind_eq (typeV_nil h).1, e]; rfl
    · unfold typeStr
      rw [bind_eq (typeV_arr h), e]; rfl

#print axioms type_name_partial
#print axioms type_names_differ
#print axioms nil_type_undefined
#print axioms type_outer_name

end Libube.MemProps

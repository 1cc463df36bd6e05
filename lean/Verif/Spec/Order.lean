import Verif.Model.Value

/-! # Specifications for comparison, sorting and maps (C25-C36)

Stated on contents only (`Val` is merely the type of contents); none of the model's comparison
functions are used. -/

namespace Libube.OrderSpec

open Libube

/-- Strings, then characters, then numbers by type. -/
def kind : Val → Nat
  | .char _ => 1
  | .int _ => 2
  | .long _ => 3
  | .float _ => 4
  | .double _ => 5
  | .cfloat _ _ => 6
  | _ => 0

/-- Values usable as keys: characters, integers, numbers that are not NaN, and strings without
    NUL characters. -/
def IsKey : Val → Prop
  | .char _ => True
  | .int _ => True
  | .long _ => True
  | .float f => ∃ x, Ieee.val32 f = some x
  | .double d => ∃ x, Ieee.val64 d = some x
  | .chars s => (0 : UInt8) ∉ s
  | _ => False

/-- The intended order of keys: by kind first; characters and numbers by (signed) numeric value;
    strings lexicographically by unsigned byte value. -/
def KeyLt : Val → Val → Prop
  | .char x, .char y => x.toInt8.toInt < y.toInt8.toInt
  | .int x, .int y => x.toInt < y.toInt
  | .long x, .long y => x.toInt < y.toInt
  | .float x, .float y => ∃ a b, Ieee.val32 x = some a ∧ Ieee.val32 y = some b ∧ a < b
  | .double x, .double y => ∃ a b, Ieee.val64 x = some a ∧ Ieee.val64 y = some b ∧ a < b
  | .chars s, .chars t => List.Lex (fun a b : UInt8 => a.toNat < b.toNat) s t
  | a, b => kind a < kind b

/-- What the order sees of a value: of a string, the part before the first NUL. -/
def visible : Val → Val
  | .chars s => .chars (s.takeWhile (fun b => decide (b ≠ 0)))
  | v => v

/-- The intended equality of keys. -/
def SameKey : Val → Val → Prop
  | .char x, .char y => x = y
  | .int x, .int y => x = y
  | .long x, .long y => x = y
  | .float x, .float y => ∃ a, Ieee.val32 x = some a ∧ Ieee.val32 y = some a
  | .double x, .double y => ∃ a, Ieee.val64 x = some a ∧ Ieee.val64 y = some a
  | .chars s, .chars t => s = t
  | _, _ => False

/-- What an array consists of, in order (of a map: its values); `none` for scalars and nil. -/
def parts : Val → Option (List Val)
  | .chars s => some (s.map .char)
  | .ints xs => some (xs.map .int)
  | .longs xs => some (xs.map .long)
  | .floats xs => some (xs.map .float)
  | .doubles xs => some (xs.map .double)
  | .cfloats xs => some (xs.map fun p => .cfloat p.1 p.2)
  | .cdoubles xs => some (xs.map fun p => .cdoubles [p])
  | .arr xs => some xs
  | .map ps => some (ps.map fun p => p.2)
  | _ => none

/-- The intended equality of values: scalars of the same type and value; arrays, whatever their
    storage, with equally many elements that are pairwise the same. -/
inductive Same : Val → Val → Prop
  | char (x) : Same (.char x) (.char x)
  | int (x) : Same (.int x) (.int x)
  | long (x) : Same (.long x) (.long x)
  | float (x y a) : Ieee.val32 x = some a → Ieee.val32 y = some a → Same (.float x) (.float y)
  | double (x y a) : Ieee.val64 x = some a → Ieee.val64 y = some a → Same (.double x) (.double y)
  | cfloat (x y x' y' a b) : Ieee.val32 x = some a → Ieee.val32 x' = some a →
      Ieee.val32 y = some b → Ieee.val32 y' = some b → Same (.cfloat x y) (.cfloat x' y')
  | array (u v : Val) (us vs : List Val) : parts u = some us → parts v = some vs →
      us.length = vs.length →
      (∀ (i : Nat) (h : i < us.length) (h' : i < vs.length), Same us[i] vs[i]) → Same u v

/-- Neither nil nor complex double numbers occur anywhere inside. -/
inductive Plain : Val → Prop
  | char (x) : Plain (.char x)
  | int (x) : Plain (.int x)
  | long (x) : Plain (.long x)
  | float (x) : Plain (.float x)
  | double (x) : Plain (.double x)
  | cfloat (x y) : Plain (.cfloat x y)
  | array (v : Val) (vs : List Val) : parts v = some vs → (∀ xs, v ≠ .cdoubles xs) →
      (∀ x ∈ vs, Plain x) → Plain v

/-- No NaN occurs anywhere inside. -/
inductive NoNaN : Val → Prop
  | char (x) : NoNaN (.char x)
  | int (x) : NoNaN (.int x)
  | long (x) : NoNaN (.long x)
  | float (x a) : Ieee.val32 x = some a → NoNaN (.float x)
  | double (x a) : Ieee.val64 x = some a → NoNaN (.double x)
  | cfloat (x y a b) : Ieee.val32 x = some a → Ieee.val32 y = some b → NoNaN (.cfloat x y)
  | array (v : Val) (vs : List Val) : parts v = some vs → (∀ x ∈ vs, NoNaN x) → NoNaN v

/-- Nesting depth of arrays. -/
def depth : Val → Nat
  | .arr xs => 1 + (xs.attach.map (fun x => depth x.1)).foldr max 0
  | .map ps => 1 + (ps.attach.map (fun p => depth p.1.2)).foldr max 0
  | .nil | .char _ | .int _ | .long _ | .float _ | .double _ | .cfloat _ _ => 0
  | _ => 1
decreasing_by
  · have := x.2; decreasing_tactic
  · obtain ⟨⟨a, b⟩, h⟩ := p
    have := List.sizeOf_lt_of_mem h
    simp only [Val.map.sizeOf_spec, Prod.mk.sizeOf_spec] at *
    omega

end Libube.OrderSpec

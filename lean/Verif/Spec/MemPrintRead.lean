import Verif.Spec.MemPrint
import Verif.Model.Json
import Verif.Model.MemCompare

/-! # Specification of printing and reading back (C169) -/

namespace Libube.MemSpec

open Mem CString

/-- The stream writes a character as it is, an integer in decimal digits, and others in a way that depends on the value only. -/
structure WritesAs (p : Printer α) (N : Numbers α) : Prop where
  char : ∀ x, p.num .char x = [N.char x]
  int : ∀ x, p.num .int x = showInt (N.int x).toInt
  long : ∀ x, p.num .long x = showInt (N.long x).toInt
  float : ∀ x, p.num .float x = Json.showFloat (N.float x)
  double : ∀ x, p.num .double x = Json.showDouble (N.double x)
  cfloat : ∀ x, p.num .cfloat x = Json.showCFloat (N.cfloat x).1 (N.cfloat x).2
  cdouble : ∀ x, p.num .cdouble x = Json.showCDouble (N.cdouble x).1 (N.cdouble x).2

/-- The value of data without arrays of several complex numbers of double precision. -/
inductive Means (N : Numbers α) : Data α → Val → Prop
  | nil : Means N .nil .nil
  | char (x : α) : Means N (.num .char x) (.char (N.char x))
  | int (x : α) : Means N (.num .int x) (.int (N.int x))
  | long (x : α) : Means N (.num .long x) (.long (N.long x))
  | float (x : α) : Means N (.num .float x) (.float (N.float x))
  | double (x : α) : Means N (.num .double x) (.double (N.double x))
  | cfloat (x : α) : Means N (.num .cfloat x) (.cfloat (N.cfloat x).1 (N.cfloat x).2)
  | str (xs : List α) : (∀ x ∈ xs, N.char x ≠ 0) → Means N (.str xs) (.chars (xs.map N.char))
  | ints (xs : List α) : Means N (.nums .int xs) (.ints (xs.map N.int))
  | longs (xs : List α) : Means N (.nums .long xs) (.longs (xs.map N.long))
  | floats (xs : List α) : Means N (.nums .float xs) (.floats (xs.map N.float))
  | doubles (xs : List α) : Means N (.nums .double xs) (.doubles (xs.map N.double))
  | cfloats (xs : List α) : Means N (.nums .cfloat xs) (.cfloats (xs.map N.cfloat))
  | cdouble (a : Addr) (x : α) : Means N (.cplx a [x]) (.cdoubles [N.cdouble x])
  | list (ds : List (Data α)) (vs : List Val) : ds.length = vs.length → (∀ (i : Nat) (d : Data α) (v : Val), ds[i]? = some d → vs[i]? = some v → Means N d v) →
      Means N (.list ds) (.arr vs)
  | map (ds : List (Data α × Data α)) (vs : List (Val × Val)) : ds.length = vs.length →
      (∀ (i : Nat) (d : Data α × Data α) (v : Val × Val), ds[i]? = some d → vs[i]? = some v → Means N d.1 v.1) →
      (∀ (i : Nat) (d : Data α × Data α) (v : Val × Val), ds[i]? = some d → vs[i]? = some v → Means N d.2 v.2) → Means N (.map ds) (.map vs)

end Libube.MemSpec

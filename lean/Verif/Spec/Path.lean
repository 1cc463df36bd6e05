import Verif.Model.Path

/-! # Specification of listing directories (C116-C119) -/

namespace Libube.PathSpec

open Libube Path

/-- A name in a directory: not empty, without `/` and NUL. -/
def Name (m : List UInt8) : Prop := m ≠ [] ∧ 47 ∉ m ∧ 0 ∉ m

/-- Every directory holds names only. -/
def Names (fs : Fs) : Prop := ∀ p ms, fs.stat p = .dir ms → ∀ m ∈ ms, Name m

/-- The path of a name in a directory. -/
def child (p m : List UInt8) : List UInt8 := if p.getLast? = some 47 then p ++ m else p ++ [47] ++ m

/-- The paths of what is in a directory and, as far as there are no symbolic links, below it. -/
inductive Below (fs : Fs) (p : List UInt8) : List UInt8 → Prop
  | here {ms m : _} : fs.stat p = .dir ms → m ∈ ms → Below fs p (child p m)
  | deeper {q : List UInt8} {ms m : _} : Below fs p q → fs.link q = false → fs.stat q = .dir ms → m ∈ ms → Below fs p (child q m)

/-- Directories can be read and are nested less than `d` deep; symbolic links are not followed. -/
def Readable (fs : Fs) : Nat → List UInt8 → Prop
  | 0, _ => False
  | d + 1, p => ∃ ms, fs.stat p = .dir ms ∧
      ∀ m ∈ ms, fs.link (child p m) = false →
        fs.stat (child p m) = .file ∨ fs.stat (child p m) = .absent ∨ Readable fs d (child p m)

/-- The same with symbolic links followed. -/
def Followable (fs : Fs) : Nat → List UInt8 → Prop
  | 0, _ => False
  | d + 1, p => ∃ ms, fs.stat p = .dir ms ∧
      ∀ m ∈ ms, fs.stat (child p m) = .file ∨ fs.stat (child p m) = .absent ∨ Followable fs d (child p m)

/-- A map with these keys, each once and in ascending order, and these values; nil if there are none. -/
def IsMap (v : Val) (key : List UInt8 → Prop) (value : List UInt8 → Val → Prop) : Prop :=
  (v = .nil ∧ ∀ k, ¬ key k) ∨
  ∃ ps : List (List UInt8 × Val), ps ≠ [] ∧ v = .map (ps.map fun e => (.chars e.1, e.2)) ∧ ps.Pairwise (fun a b => a.1 < b.1) ∧
    (∀ e ∈ ps, key e.1 ∧ value e.1 e.2) ∧ ∀ k, key k → ∃ e ∈ ps, e.1 = k

/-- The value shows what is at the path: nil for anything but a directory that holds something, else a map from the names to what
    is there. -/
inductive Mirrors (fs : Fs) : List UInt8 → Val → Prop
  | file {p} : fs.stat p = .file ∨ fs.stat p = .absent → Mirrors fs p .nil
  | empty {p} : fs.stat p = .dir [] → Mirrors fs p .nil
  | dir {p ms} {ps : List (List UInt8 × Val)} : fs.stat p = .dir ms → ps ≠ [] → ps.Pairwise (fun a b => a.1 < b.1) → (∀ m ∈ ms, ∃ e ∈ ps, e.1 = m) →
      (∀ e ∈ ps, e.1 ∈ ms) → (∀ e ∈ ps, Mirrors fs (child p e.1) e.2) → Mirrors fs p (.map (ps.map fun e => (.chars e.1, e.2)))

/-- The parts of a name: the extension is empty or begins with the only `.` in it, and there is something before it; a name that has
    no extension has no `.` but at its beginning, or is `..`. -/
structure Parts (name stem ext : List UInt8) : Prop where
  whole : stem ++ ext = name
  some : ext = [] ∨ ∃ e, ext = 46 :: e ∧ 46 ∉ e ∧ stem ≠ [] ∧ name ≠ [46, 46]
  none : ext = [] → name = [46, 46] ∨ 46 ∉ name.tail

end Libube.PathSpec

namespace Libube.PathSpec

open Libube Path

/-- A path taken apart: `parent`, `/`, `stem` and `ext` make up the path, unless there are two `/` next to each other in it. -/
def PathParts (q parent stem ext : List UInt8) : Prop :=
  ∃ name, 47 ∉ name ∧ Parts name stem ext ∧ ((¬ ∃ a b, q = a ++ [47, 47] ++ b) → q = if parent = [] then name else child parent name)

/-- What is told about a path: nil, or if asked for, its parts. -/
def Told (asked : Bool) (q : List UInt8) (x : Val) : Prop :=
  if asked then ∃ parent stem ext, x = .arr [.chars parent, .chars stem, .chars ext] ∧ PathParts q parent stem ext else x = .nil

/-- `p`, `p/l`, `p/l/l`, … -/
def chain (p l : List UInt8) : Nat → List UInt8
  | 0 => p
  | k + 1 => child (chain p l k) l

end Libube.PathSpec

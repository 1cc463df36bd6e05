import Verif.Model.Dft
import Verif.Model.Transpose

/-! # Transposition with the MKL (lube/transpose-mkl.cpp)

The functions of the library are parameters.  Everything but `Transpose::vector` is the same text as in
lube/transpose-adhoc.cpp. -/

namespace Libube.TransposeMkl

open View Transpose

/-- What `mkl_?omatcopy` and `mkl_?imatcopy` with `'r'`, `'t'` and factor 1 compute from the rows, the columns, the two leading
    dimensions and the elements they read (called at lube/transpose-mkl.cpp:82-85, 88-91, 101-105, 108-112).  For leading
    dimensions that are the number of columns and of rows the elements read and written have no gaps. -/
structure Lib (α : Type) where
  omatcopy : Nat → Nat → Nat → Nat → List α → List α
  imatcopy : Nat → Nat → Nat → Nat → List α → List α

/-- `Transpose::vector` to a new location (lube/transpose-mkl.cpp:71-76, 96-113) for floats and doubles. -/
def vectorOut (L : Lib α) (a out : Arr α) (offI offO : Int) (dst : List α) : Outcome (List α) := do
  let rows ← shape a ((dim a : Int) - 2)
  let cols ← shape a ((dim a : Int) - 1)
  let o ← offset a
  let o' ← offset out
  let xs ← Dft.readRow a.data (o + offI) 0 (rows.toNat * cols.toNat)
  Dft.writeRow (o' + offO) 0 (L.omatcopy rows.toNat cols.toNat cols.toNat rows.toNat xs) dst

/-- `Transpose::vector` in place (lube/transpose-mkl.cpp:71-92) for floats and doubles. -/
def vectorIn (L : Lib α) (a : Arr α) (_offI offO : Int) (dst : List α) : Outcome (List α) := do
  let rows ← shape a ((dim a : Int) - 2)
  let cols ← shape a ((dim a : Int) - 1)
  let o ← offset a
  let xs ← Dft.readRow dst (o + offO) 0 (rows.toNat * cols.toNat)
  Dft.writeRow (o + offO) 0 (L.imatcopy rows.toNat cols.toNat cols.toNat rows.toNat xs) dst

/-- The type switches of `Transpose::vector` (lube/transpose-mkl.cpp:79-95, 98-116). -/
def vectorOf (k : Kind) (f : Int → Int → List α → Outcome (List α)) (offI offO : Int) (dst : List α) : Outcome (List α) :=
  match k with
  | .float | .double => f offI offO dst
  | _ => .thrown (.error "Transpose::vector(): unknown type")

/-- `transpose(x)` (lube/func.cpp:32-37 with `alloc` and `scalar` of lube/transpose-mkl.cpp:23-51). -/
def transposeNew (L : Lib α) (k : Kind) (junk : List α) (a : Arr α) : Outcome (Arr α) := do
  let s ← shapeLoop a 0 (dim a)
  if s.length < 2 then .thrown (.error "Transpose::alloc: dimension < 2")
  else do
    let x ← ipGet s (s.length - 1)
    let y ← ipGet s (s.length - 2)
    let s ← ipSet s (s.length - 1) y
    let s ← ipSet s (s.length - 2) x
    let out ← newView s junk
    let data ← broadcast 2 (vectorOf k (vectorOut L a out)) a out
    .ok ⟨data, out.ip⟩

/-- `x.transpose()` (lube/var.h:169) on a view: `Transpose::scalar` with input and output the same (lube/transpose-mkl.cpp:43-68). -/
def transposeInPlace (L : Lib α) (k : Kind) (a : Arr α) : Outcome (Arr α) := do
  let data ← broadcast 2 (vectorOf k (vectorIn L a)) a a
  match a.ip with
  | none => .thrown (.error "Heap::stride(): not a view")
  | some ip => do
    let ip ← swapDims ip (dim a)
    .ok ⟨data, some ip⟩

end Libube.TransposeMkl

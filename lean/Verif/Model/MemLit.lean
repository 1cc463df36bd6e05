import Verif.Model.Mem

/-! # Literals -/

namespace Libube.Mem

/-- A string literal (lube/var.cpp:415-418, 428-433, lube/heap.cpp:87-91, 172-183). -/
def newStr [Env α] (cs : List α) : M α (V α) := do
  let o ← liftO (resizeObj ⟨.char, 0, 1, []⟩ cs.length)
  let b ← pushObj { o with cells := cs.map (fun x => .raw (some x)) ++ o.cells.drop cs.length }
  pure (.arr b)

/-- A number literal (lube/var.cpp:368-413): a `cdouble` is an array of one. -/
def newNum [Env α] (k : Kind) (x : α) : M α (V α) :=
  if k = .var ∨ k = .pair then undef .badPointer else boxed k x

end Libube.Mem

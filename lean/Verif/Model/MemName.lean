import Verif.Model.Mem
import Verif.Model.CString

/-! # Names of types (lube/var.cpp) -/

namespace Libube.Mem

open CString

/-- `libube::typeStr` for the types an element can have (lube/var.cpp:983-1000). -/
def kindName : Kind → Bytes
  | .char => [99, 104, 97, 114]
  | .int => [105, 110, 116]
  | .long => [108, 111, 110, 103]
  | .float => [102, 108, 111, 97, 116]
  | .double => [100, 111, 117, 98, 108, 101]
  | .cfloat => [99, 102, 108, 111, 97, 116]
  | .cdouble => [99, 100, 111, 117, 98, 108, 101]
  | .var => [118, 97, 114]
  | .pair => [112, 97, 105, 114]

/-- `"array"`: `libube::typeStr(TYPE_ARRAY)` (lube/var.cpp:987). -/
def arrayName : Bytes := [97, 114, 114, 97, 121]

/-- `var::typeStr` (lube/var.cpp:1008-1011); the bytes of the string that is returned. -/
def typeStr (v : V α) : M α Bytes := do
  match ← typeV v with
  | none => pure arrayName
  | some k => pure (kindName k)

/-- `var::atypeStr` (lube/var.cpp:1019-1028); the bytes of the string that is returned.  `heap()` is a null pointer for nil. -/
def atypeStr (v : V α) : M α Bytes := do
  match ← typeV v with
  | none => do
    match ← heapOf v with
    | none => undef .nullDeref
    | some a => do
      let o ← obj a
      pure (arrayName ++ [91] ++ kindName o.kind ++ [93])
  | some _ => typeStr v

end Libube.Mem

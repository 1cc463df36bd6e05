import Verif.Model.CString

/-! # Specification of lines (C14, C15) -/

namespace Libube.LineSpec

open Libube.CString

/-- The bytes of a file with these lines, every line ended by a newline. -/
def terminated (ls : List Bytes) : Bytes := ls.flatMap (fun l => l ++ [10])

/-- No line contains a newline. -/
def Lines (ls : List Bytes) : Prop := ∀ l ∈ ls, (10 : UInt8) ∉ l

end Libube.LineSpec

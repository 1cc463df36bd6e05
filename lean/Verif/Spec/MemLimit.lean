import Verif.Spec.MemArray

/-! # Specification of the largest arrays (C156) -/

namespace Libube.MemSpec

open Mem

/-- The largest number of elements: 2^30, or one less for a string, which has a NUL at the end. -/
def limit (k : Kind) : Nat := if k = .char then 2 ^ 30 - 1 else 2 ^ 30

end Libube.MemSpec

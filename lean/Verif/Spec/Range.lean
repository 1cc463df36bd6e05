import Verif.Model.Range

/-! # Specification of ranges (C67) -/

namespace Libube.RangeSpec

open Range

/-- The numbers `lo`, `lo+step`, …, `n` of them, all of type `t`. -/
def progression (t : Ty) (lo step : Int) (n : Nat) : List Num :=
  (List.range n).map fun (i : Nat) => ⟨t, lo + i * step⟩

/-- What a result is: nil for no elements, the number itself for one, else an array. -/
def Holds (r : Res) : List Num → Prop
  | [] => r = .nil
  | [x] => r = .number x
  | xs => r = .array xs

/-- The largest value of a type. -/
def maxOf (t : Ty) : Int := 2 ^ (t.bits - 1) - 1

end Libube.RangeSpec

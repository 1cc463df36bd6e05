import Verif.Model.Ind

namespace Libube.Ind

open Libube

theorem toBool_iff (x : Ind) : toBool x = true ↔ 0 ≤ x.toInt := by
  unfold toBool
  rw [BitVec.slt]
  simp

theorem complWrap_eq_not (x : Ind) : complWrap x = ~~~x := by
  unfold complWrap
  rw [BitVec.neg_add, BitVec.not_eq_neg_add]

theorem not_toInt (x : Ind) : (~~~x).toInt = -x.toInt - 1 := by
  rw [BitVec.toInt_not]
  have := x.isLt
  rw [BitVec.toInt_eq_toNat_bmod]
  simp [Int.bmod_def]
  omega

end Libube.Ind

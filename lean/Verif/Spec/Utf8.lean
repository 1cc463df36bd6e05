/-! # Specification of UTF-8 structure, in terms of numerical byte ranges (RFC 3629, section 3) -/

namespace Libube.Utf8

/-- continuation byte -/
def IsCont (b : UInt8) : Prop := 0x80 ≤ b.toNat ∧ b.toNat ≤ 0xBF

/-- one code point's worth of bytes: a lead byte and the number of continuation bytes it
    announces -/
inductive IsGroup : List UInt8 → Prop
  | one (a : UInt8) : a.toNat ≤ 0x7F → IsGroup [a]
  | two (a b : UInt8) : 0xC0 ≤ a.toNat → a.toNat ≤ 0xDF → IsCont b → IsGroup [a, b]
  | three (a b c : UInt8) : 0xE0 ≤ a.toNat → a.toNat ≤ 0xEF → IsCont b → IsCont c →
      IsGroup [a, b, c]
  | four (a b c d : UInt8) : 0xF0 ≤ a.toNat → a.toNat ≤ 0xF7 → IsCont b → IsCont c → IsCont d →
      IsGroup [a, b, c, d]

/-- the string is a sequence of `n` groups -/
inductive Grouped : List UInt8 → Nat → Prop
  | nil : Grouped [] 0
  | cons (g s : List UInt8) (n : Nat) : IsGroup g → Grouped s n → Grouped (g ++ s) (n + 1)

end Libube.Utf8

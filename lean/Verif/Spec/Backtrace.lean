import Mathlib.Data.List.Basic

/-! # Specification of the text of errors (C132, C133) -/

namespace Libube.BacktraceSpec

/-- The characters of a text in ASCII. -/
def ascii (s : String) : List UInt8 := s.toList.map fun c => UInt8.ofNat c.toNat

/-- A call whose function has a name, as described by the C library. -/
structure Call where
  file : List UInt8
  name : List UInt8
  offset : List UInt8
  addr : List UInt8

/-- `file(name+offset) [addr]` -/
def Call.text (c : Call) : List UInt8 :=
  c.file ++ [40] ++ c.name ++ [43] ++ c.offset ++ [41, 32, 91] ++ c.addr ++ [93]

/-- The file has no opening parenthesis, the name none of `+`, `)` and NUL. -/
def Call.Plain (c : Call) : Prop := 40 ∉ c.file ∧ 43 ∉ c.name ∧ 41 ∉ c.name ∧ 0 ∉ c.name

/-- A call without a name: `file() [addr]` -/
def nameless (file addr : List UInt8) : List UInt8 := file ++ [40, 41, 32, 91] ++ addr ++ [93]

/-- A demangler that answers with a text without NUL, or says that the name is not a mangled one. -/
def Answers (dem : List UInt8 → Int × List UInt8) : Prop :=
  ∀ n, ((dem n).1 = 0 ∧ 0 ∉ (dem n).2) ∨ (dem n).1 = -2

/-- The name as a reader wants to see it. -/
def readable (dem : List UInt8 → Int × List UInt8) (n : List UInt8) : List UInt8 :=
  if (dem n).1 = 0 then (dem n).2 else n

/-- The list of calls as it should be shown, one on a line. -/
def lines (dem : List UInt8 → Int × List UInt8) (cs : List Call) : List UInt8 :=
  cs.flatMap fun c => ascii "\n  " ++ readable dem c.name

end Libube.BacktraceSpec

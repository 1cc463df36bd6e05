import Verif.Model.Outcome

/-! # The C library functions on bytes and strings that lube/string.cpp relies on

A `const char*` into a NUL-terminated buffer is represented by the list of bytes from the
pointer up to, not including, the next NUL. -/

namespace Libube.CString

open Libube

/-- Strings and bytes. -/
abbrev Bytes := List UInt8

/-- What a C function sees of a character array: everything before the first NUL
    (`var::str()`, lube/var.cpp:194-200, hands out the array as `const char*`). -/
def cstr (s : Bytes) : Bytes := s.takeWhile (· ≠ 0)

/-- `std::strstr(source, iStr)` as an offset from `source`; used at lube/string.cpp:155. -/
def strstr (hay needle : Bytes) : Option Nat :=
  if needle.isPrefixOf hay then some 0
  else match hay with
    | [] => none
    | _ :: t => (strstr t needle).map (· + 1)

/-- `std::isspace` in the "C" locale; used at lube/string.cpp:182-194 and 236-239.  Bytes above
    127 are negative `char`s; glibc's table classifies them as non-space. -/
def isspace (b : UInt8) : Bool :=
  b = 32 || b = 9 || b = 10 || b = 11 || b = 12 || b = 13

/-- `std::toupper` in the "C" locale; used at lube/string.cpp:330. -/
def toupper (b : UInt8) : UInt8 := if 97 ≤ b ∧ b ≤ 122 then b - 32 else b

/-- `std::tolower` in the "C" locale; used at lube/string.cpp:344. -/
def tolower (b : UInt8) : UInt8 := if 65 ≤ b ∧ b ≤ 90 then b + 32 else b

end Libube.CString

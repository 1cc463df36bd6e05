import Verif.Model.Json

/-! # Errors and their text (lube/var.cpp, `error`)

`HAVE_BACKTRACE` is defined, as it is with the GNU C library.  The strings of `backtrace_symbols` and the function `__cxa_demangle` are
parameters. -/

namespace Libube.Backtrace

open CString

/-- What `abi::__cxa_demangle` makes of a name: the status, and the text if the status is 0. -/
abbrev Demangle := Bytes → Int × Bytes

/-- `strchr(s, c)` for a character other than NUL, as an offset (lube/var.cpp:1563-1564, 1574). -/
def strchr (s : Bytes) (c : UInt8) : Option Nat :=
  match s with
  | [] => none
  | d :: s => if d = c then some 0 else (strchr s c).map (· + 1)

/-- `"(undefined)"` -/
def undefinedText : Bytes := [40, 117, 110, 100, 101, 102, 105, 110, 101, 100, 41]

/-- `"\n  "` -/
def indent : Bytes := [10, 32, 32]

/-- What is written for a name (lube/var.cpp:1577-1592). -/
def shown (st : Int) (text name : Bytes) : Bytes :=
  if st = 0 then cstr text
  else if st = -1 then [77, 101, 109, 111, 114, 121, 32, 102, 117, 99, 107, 117, 112]
  else if st = -2 then name
  else if st = -3 then [73, 110, 118, 97, 108, 105, 100]
  else []

/-- The loop over the calls (lube/var.cpp:1558-1595): what is written, and the number of blocks of memory that are never freed.  `held` says whether
    `buffer` points to a block; `__cxa_demangle` returns null if it fails, and the block is lost.  On return from within the loop the
    block and the strings are lost. -/
def loop (dem : Demangle) : Bool → Nat → List Bytes → Outcome (Bytes × Nat)
  | _, lost, [] => .ok ([], lost)
  | held, lost, s :: ss =>
    match strchr s 40 with
    | none => .ub .nullDeref
    | some p =>
      if strchr s 41 = some (p + 1) then .ok (undefinedText, lost + 1 + held.toNat)
      else
        match strchr (s.drop (p + 1)) 43 with
        | none => .ub .nullDeref
        | some q => do
          let name := (s.drop (p + 1)).take q
          let (st, text) := dem name
          let (rest, lost) ← loop dem (decide (st = 0)) (if st = 0 then lost else lost + held.toNat) ss
          .ok (indent ++ shown st text name ++ rest, lost)

/-- `"\n  backtrace_symbols() failed"` -/
def failedText : Bytes := indent ++
  [98, 97, 99, 107, 116, 114, 97, 99, 101, 95, 115, 121, 109, 98, 111, 108, 115, 40, 41, 32, 102, 97, 105, 108, 101, 100]

/-- `"\nCall stack (size "` -/
def stackText : Bytes := [10, 67, 97, 108, 108, 32, 115, 116, 97, 99, 107, 32, 40, 115, 105, 122, 101, 32]

/-- `error::backTrace` (lube/var.cpp:1539-1597); `none` if `backtrace_symbols` fails. -/
def backTrace (dem : Demangle) : Option (List Bytes) → Outcome (Bytes × Nat)
  | none => .ok (failedText, 0)
  | some ss => do
    let (t, lost) ← loop dem true 0 ss
    .ok (stackText ++ showNat ss.length ++ [41, 58] ++ t, lost)

/-- `error::error` and `what` (lube/var.cpp:1524-1531, 1599-1602): the text, and the number of blocks lost.  The message is formatted as any
    other value. -/
def what (dem : Demangle) (msg : Val) (stack : Option (List Bytes)) : Outcome (Bytes × Nat) := do
  let (t, lost) ← backTrace dem stack
  .ok (cstr (Json.format 0 msg ++ t), lost)

end Libube.Backtrace

import Verif.Model.Cast
import Verif.Model.MapOps

/-! # lube/json.cpp -/

namespace Libube.Json

open Libube Libube.CString

/-- An input stream: the unread bytes and whether an extraction has failed (`failbit`).  `eofbit`
    is not shown: in this parser it only leads to failures that end in an exception. -/
structure Stream where
  rest : Bytes
  fail : Bool := false

/-- `JSON::peek` (lube/json.cpp:45-54): white space is removed; the next character, or -1 at the
    end of the stream, which as a `char` is the byte 0xFF, is looked at by the callers. -/
def skip (s : Bytes) : Bytes := s.dropWhile isspace

/-- The loop of `JSON::doString` (lube/json.cpp:140-160) on the bytes after the opening quote. -/
def strLoop (acc : Bytes) : Bytes → Outcome (Bytes × Bytes)
  | [] => .thrown (.error "Unterminated JSON string")
  | c :: rest =>
    if c = 34 then .ok (acc, rest)
    else if c = 92 then match rest with
      | 34 :: rest => strLoop (acc ++ [34]) rest
      | _ => .thrown (.error "Unrecognised JSON string escape")
    else strLoop (acc ++ [c]) rest

/-- `JSON::doString` (lube/json.cpp:134-162). -/
def doString : Bytes → Outcome (Bytes × Bytes)
  | 34 :: rest => strLoop [] rest
  | _ => .thrown (.error "JSON string doesn't start with \"")

/-- Ends a raw value: white space or what `strchr(",[]{}", c)` finds, including the terminating
    NUL (lube/json.cpp:192-195). -/
def isDelim (c : UInt8) : Bool :=
  isspace c || c = 44 || c = 91 || c = 93 || c = 123 || c = 125 || c = 0

/-- The loop of `JSON::doRaw` (lube/json.cpp:188-197): the characters of the value and the stream
    behind them.  The delimiter is extracted too; `get` at the end of the stream sets
    `failbit`. -/
def rawLoop (acc : Bytes) : Bytes → Bytes × Stream
  | [] => (acc, ⟨[], true⟩)
  | c :: rest => if isDelim c then (acc, ⟨rest, false⟩) else rawLoop (acc ++ [c]) rest

/-- `toNumber` (lube/json.cpp:164-183). -/
def toNumber (s : Bytes) : Val :=
  match readNum 64 s with
  | some l => .long l
  | none => match readDouble s with
    | some d => .double d
    | none => .nil

/-- The meaning of the characters of a raw value (lube/json.cpp:199-215).  The comparisons
    `val == "true"` are comparisons of character arrays (see C25). -/
def rawValue (val : Bytes) : Outcome Val :=
  if val = [116, 114, 117, 101] then .ok (.int 1)
  else if val = [102, 97, 108, 115, 101] then .ok (.int 0)
  else if val = [110, 117, 108, 108] then .ok .nil
  else
    let num := toNumber val
    if num.defined then .ok num else .thrown (.error "Unrecognised JSON raw value: ")

/-- `JSON::doRaw` (lube/json.cpp:185-216). -/
def doRaw (s : Bytes) : Outcome (Val × Stream) := do
  let (val, s) := rawLoop [] s
  let v ← rawValue val
  .ok (v, s)

/-- The assignment `obj[key] = doValue(iStream)` (lube/json.cpp:97): no effect if the key is nil. -/
def bindKey (n : Nat) (ps : List (Val × Val)) (key : Option Bytes) (v : Val) :
    Outcome (List (Val × Val)) :=
  match key with
  | none => .ok ps
  | some k => mapSet n ps (.chars k) v

mutual

/-- `JSON::doValue` (lube/json.cpp:56-74).  The first number bounds the depth of calls and
    iterations, exceeding it is `diverge`; `n` is the depth granted to key comparisons. -/
def doValue (n : Nat) : Nat → Bytes → Outcome (Val × Stream)
  | 0, _ => .diverge
  | fuel + 1, s =>
    match skip s with
    | 123 :: rest => objLoop n fuel ⟨rest, false⟩ [] none
    | 91 :: rest => arrLoop n fuel ⟨rest, false⟩ .nil
    | 34 :: rest => do
      let (str, rest) ← doString (34 :: rest)
      .ok (.chars str, ⟨rest, false⟩)
    | s => doRaw s

/-- The loop of `JSON::doObject` (lube/json.cpp:84-107): the members so far and the current
    key. -/
def objLoop (n : Nat) : Nat → Stream → List (Val × Val) → Option Bytes → Outcome (Val × Stream)
  | 0, _, _, _ => .diverge
  | fuel + 1, s, ps, key =>
    if s.fail then .ok (.map ps, s)
    else match skip s.rest with
      | 125 :: rest => .ok (.map ps, ⟨rest, false⟩)
      | 34 :: rest => do
        let (k, rest) ← doString (34 :: rest)
        objLoop n fuel ⟨rest, false⟩ ps (some k)
      | 58 :: rest => do
        let (v, s) ← doValue n fuel rest
        let ps ← bindKey n ps key v
        objLoop n fuel s ps key
      | 44 :: rest => objLoop n fuel ⟨rest, false⟩ ps none
      | _ => .thrown (.error "Unknown character")

/-- The loop of `JSON::doArray` (lube/json.cpp:116-131): the array so far. -/
def arrLoop (n : Nat) : Nat → Stream → Val → Outcome (Val × Stream)
  | 0, _, _ => .diverge
  | fuel + 1, s, arr =>
    if s.fail then .ok (arr, s)
    else match skip s.rest with
      | 93 :: rest => .ok (arr, ⟨rest, false⟩)
      | 44 :: rest => arrLoop n fuel ⟨rest, false⟩ arr
      | rest => do
        let (v, s) ← doValue n fuel rest
        let arr ← push arr v
        arrLoop n fuel s arr

end

/-- `operator>>(istream, var)` on a stream with the given bytes (lube/json.cpp:223-235): the
    value and the bytes left in the stream. -/
def parse (n fuel : Nat) (s : Bytes) : Outcome (Val × Bytes) := do
  let (v, s) ← doValue n fuel s
  .ok (v, s.rest)

/-- `ostream << float` (lube/json.cpp:267), `<< double` (270), `<< cfloat` (273) and
    `<< cdouble` (341): nothing is assumed about the text. -/
opaque showFloat (f : BitVec 32) : Bytes
@[inherit_doc showFloat] opaque showDouble (d : BitVec 64) : Bytes
@[inherit_doc showFloat] opaque showCFloat (re im : BitVec 32) : Bytes
@[inherit_doc showFloat] opaque showCDouble (re im : BitVec 64) : Bytes
/-- `ostream << cdouble*`, the text of an address (lube/json.cpp:349). -/
opaque showPointer (i : Nat) : Bytes

/-- Blanks written one by one (lube/json.cpp:308-309, 318-319, 327-328, 334-335). -/
def spaces (n : Nat) : Bytes := List.replicate n 32

/-- A dense array (lube/json.cpp:359-367): elements separated by comma and blank. -/
def showDense : List Bytes → Bytes
  | [] => [91, 93]
  | x :: xs => 91 :: (x ++ xs.flatMap (fun y => [44, 32] ++ y)) ++ [93]

/-- The lines of an array of cdoubles (lube/json.cpp:345-353). -/
def showCDoubles (ind i : Nat) : List (BitVec 64 × BitVec 64) → Bytes
  | [] => []
  | [_] => spaces (ind + 2) ++ showPointer i ++ [10]
  | _ :: x :: xs => spaces (ind + 2) ++ showPointer i ++ [44, 10] ++ showCDoubles ind (i + 1) (x :: xs)

mutual

/-- `JSON::format` and `JSON::formatArray` (lube/json.cpp:242-282, 293-369), for values that are
    not views: the text written, at indentation `ind`, to a stream with default formatting flags. -/
def format (ind : Nat) : Val → Bytes
  | .nil => [110, 117, 108, 108]
  | .char c => [39, c, 39]
  | .int i => showInt i.toInt
  | .long l => showInt l.toInt
  | .float f => showFloat f
  | .double d => showDouble d
  | .cfloat r i => showCFloat r i
  | .chars s => 34 :: cstr s ++ [34]
  | .ints xs => showDense (xs.map (fun i => showInt i.toInt))
  | .longs xs => showDense (xs.map (fun i => showInt i.toInt))
  | .floats xs => showDense (xs.map showFloat)
  | .doubles xs => showDense (xs.map showDouble)
  | .cfloats xs => showDense (xs.map (fun p => showCFloat p.1 p.2))
  | .cdoubles [p] => showCDouble p.1 p.2
  | .cdoubles xs => [91, 10] ++ showCDoubles ind 0 xs ++ spaces ind ++ [93]
  | .arr xs => [91, 10] ++ formatItems ind xs ++ spaces ind ++ [93]
  | .map [] => [123, 125]
  | .map (p :: ps) => 123 :: formatMembers ind (p :: ps) ++ 10 :: spaces ind ++ [125]

/-- The elements of an array of vars (lube/json.cpp:325-333). -/
def formatItems (ind : Nat) : List Val → Bytes
  | [] => []
  | [x] => spaces (ind + 2) ++ format (ind + 2) x ++ [10]
  | x :: y :: xs => spaces (ind + 2) ++ format (ind + 2) x ++ [44, 10] ++ formatItems ind (y :: xs)

/-- The members of a map (lube/json.cpp:305-314); keys are written without indentation (310). -/
def formatMembers (ind : Nat) : List (Val × Val) → Bytes
  | [] => []
  | [(k, v)] => 10 :: spaces (ind + 2) ++ format 0 k ++ [58, 32] ++ format (ind + 2) v
  | (k, v) :: p :: ps => 10 :: spaces (ind + 2) ++ format 0 k ++ [58, 32] ++ format (ind + 2) v ++ [44] ++
      formatMembers ind (p :: ps)

end

end Libube.Json

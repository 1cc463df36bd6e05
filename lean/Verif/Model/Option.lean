import Verif.Model.GetLine
import Verif.Model.MapOps

/-! # lube/config.cpp: command line options

`getopt` is not part of the repository.  Its model follows its manual page (`man 3 getopt`): with
`permute` the behaviour of the GNU library, which moves arguments that are not options to the end;
without it that of POSIX, which stops at the first such argument.  What is special in option strings (`+`, `-` or `:` at the
beginning, `W;`, null characters) is left out; the properties are about options that are letters. -/

namespace Libube.Option

open Libube Libube.CString

/-- Where `getopt` stands: arguments passed over, rest of the current group of options, arguments to
    come.  (In C: `argv` up to and from `optind`, and a hidden pointer.) -/
structure Scan where
  seen : List Bytes
  cur : Bytes
  rest : List Bytes

/-- What `getopt` returns: an option and `optarg` (`none` for a null pointer), `'?'`, or -1. -/
inductive Got where
  | opt (c : UInt8) (arg : Option Bytes)
  | bad
  | done

/-- Whether the option string has the character, and if so whether a colon follows. -/
def known (c : UInt8) : Bytes → Option Bool
  | [] => none
  | x :: xs => if x = c then some (xs.head? == some 58) else known c xs

/-- `getopt` at the option `c`, followed by `cs` in the same argument. -/
def word (os : Bytes) (seen : List Bytes) (c : UInt8) (cs : Bytes) (rest : List Bytes) : Got × Scan :=
  match if c = 58 then none else known c os with
  | none => (.bad, ⟨seen, cs, rest⟩)
  | some false => (.opt c none, ⟨seen, cs, rest⟩)
  | some true =>
    match cs, rest with
    | [], [] => (.bad, ⟨seen, [], []⟩)
    | [], a :: rest => (.opt c (some a), ⟨seen, [], rest⟩)
    | cs, rest => (.opt c (some cs), ⟨seen, [], rest⟩)

/-- `getopt` at the beginning of an argument. -/
def scan (permute : Bool) (os : Bytes) : List Bytes → List Bytes → Got × Scan
  | seen, [] => (.done, ⟨seen, [], []⟩)
  | seen, a :: rest =>
    if a = [45, 45] then (.done, ⟨seen, [], rest⟩)
    else match a with
      | 45 :: c :: cs => word os seen c cs rest
      | _ => if permute then scan permute os (seen ++ [a]) rest else (.done, ⟨seen, [], a :: rest⟩)

/-- `getopt`. -/
def getopt (permute : Bool) (os : Bytes) (s : Scan) : Got × Scan :=
  match s.cur with
  | c :: cs => word os s.seen c cs s.rest
  | [] => scan permute os s.seen s.rest

/-- `mOptString` and `mOpts` (lube/config.h:43-45). -/
structure Opts where
  string : Bytes
  map : List (Val × Val)

/-- `Option::Option()` (lube/config.cpp:17-24). -/
def Opts.start : Opts := ⟨[], []⟩

/-- `Option::operator()(char, var, var)` (lube/config.cpp:73-84) without the lines of the usage text.
    `n` is the depth granted to comparisons. -/
def register (n : Nat) (o : Opts) (c : UInt8) (dflt : Val) : Outcome Opts := do
  let m ← mapSet n o.map (.char c) dflt
  .ok ⟨o.string ++ c :: (if dflt.defined then [58] else []), m⟩

/-- Registering several options (lube/config.cpp:73-84). -/
def registerAll (n : Nat) : Opts → List (UInt8 × Val) → Outcome Opts
  | o, [] => .ok o
  | o, (c, d) :: rs => do
    let o ← register n o c d
    registerAll n o rs

/-- How `Option::parse` ends: with the map, or in `exit(0)` after the usage text
    (lube/config.cpp:98-99, lube/config.h:38). -/
inductive Parsed where
  | opts (m : List (Val × Val)) (s : Scan)
  | exited

/-- `var a = mOpts[o] ? arg() : 1; mOpts[o] = a;` (lube/config.cpp:100-101, 57-66).  The text of the
    exception also names the option. -/
def store (n : Nat) (m : List (Val × Val)) (c : UInt8) (arg : Option Bytes) :
    Outcome (List (Val × Val)) := do
  let (m, i) ← mapRef n m (.char c)
  match i with
  | none => .ok m
  | some i =>
    match m[i]? with
    | none => .ub .outOfBounds
    | some p =>
      if p.2.defined then
        match arg with
        | none => .thrown (.error "optarg is null")
        | some a => mapSet n m (.char c) (.chars a)
      else mapSet n m (.char c) (.int 1#32)

/-- The loop of `Option::parse` (lube/config.cpp:95-102); the first number bounds the iterations.  An option `'?'` is not told
    from the `'?'` of an error (98). -/
def parseLoop (permute : Bool) (n : Nat) (os : Bytes) : Nat → List (Val × Val) → Scan → Outcome Parsed
  | 0, _, _ => .diverge
  | fuel + 1, m, s =>
    match getopt permute os s with
    | (.done, s) => .ok (.opts m s)
    | (.bad, _) => .ok .exited
    | (.opt c arg, s) => if c = 63 then .ok .exited else do
      let m ← store n m c arg
      parseLoop permute n os fuel m s

/-- `Option::parse` (lube/config.cpp:91-104) on the arguments after the program name, with `optind`
    at 1. -/
def parse (permute : Bool) (n fuel : Nat) (o : Opts) (args : List Bytes) : Outcome Parsed :=
  parseLoop permute n o.string fuel o.map ⟨[], [], args⟩

/-- `Option::args` after parsing (lube/config.cpp:68-71; lube/var.cpp:435-441): the arguments from
    `optind` on, pushed one by one. -/
def args (s : Scan) : Val := GetLine.pushed (s.seen ++ s.rest)

end Libube.Option

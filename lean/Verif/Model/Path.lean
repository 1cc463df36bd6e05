import Verif.Model.MapOps

/-! # lube/path.cpp: listing directories

The file system is a parameter and does not change during a call.  `std::filesystem` is modelled as it is on POSIX systems; its
exception `filesystem_error` is `ioFailure`. -/

namespace Libube.Path

open Libube Libube.CString

/-- What `std::filesystem::status` and opening a directory tell about a path: nothing there, something that is no directory, a directory
    with its names in the order in which they are read, a directory that cannot be read, or an error (as used at lube/path.cpp:61-108). -/
inductive Stat where
  | absent
  | file
  | dir (names : List Bytes)
  | closed
  | error
deriving DecidableEq

/-- A file system: what there is at a path, symbolic links being followed, and whether the path itself is a symbolic link (as used at
    lube/path.cpp:61-108). -/
structure Fs where
  stat : Bytes → Stat
  link : Bytes → Bool

/-- `p / name` for a name without `/`, as made by the iterators (lube/path.cpp:66, 84, 101). -/
def join (p name : Bytes) : Bytes :=
  if p = [] ∨ p.getLast? = some 47 then p ++ name else p ++ 47 :: name

/-- `path::filename()` (lube/path.cpp:103, 105): what follows the last `/`. -/
def filename (p : Bytes) : Bytes := (p.reverse.takeWhile (· ≠ 47)).reverse

/-- `path::parent_path()` (lube/path.cpp:55): without the file name and the `/` before it; the root is kept. -/
def parentPath (p : Bytes) : Bytes :=
  let q := p.reverse.dropWhile (· ≠ 47)
  let r := q.dropWhile (· = 47)
  if q ≠ [] ∧ r = [] then [47] else r.reverse

/-- The position of the `.` where the extension begins: the last one, unless it is the first character or the name is `..`
    (C++17, 30.10.8.4.9; used at lube/path.cpp:53-54). -/
def dot (name : Bytes) : Option Nat :=
  if name = [46, 46] then none
  else
    let ext := (name.reverse.takeWhile (· ≠ 46)).length
    if ext + 1 < name.length then some (name.length - ext - 1) else none

/-- `path::stem()` (lube/path.cpp:54). -/
def stem (p : Bytes) : Bytes :=
  match dot (filename p) with
  | none => filename p
  | some i => (filename p).take i

/-- `path::extension()` (lube/path.cpp:53). -/
def extension (p : Bytes) : Bytes :=
  match dot (filename p) with
  | none => []
  | some i => (filename p).drop i

/-- `bits` (lube/path.cpp:50-57).  Paths contain no NUL. -/
def bits (p : Bytes) : Val := .arr [.chars (parentPath p), .chars (stem p), .chars (extension p)]

/-- `dir[key] = v` (lube/path.cpp:67, 79, 85, 103, 105; lube/var.cpp:735-753) for a variable that is nil or a map.  `n` is the depth
    granted to comparisons. -/
def setKey (n : Nat) (d : Val) (k : Bytes) (v : Val) : Outcome Val :=
  match d with
  | .nil => do
    let ps ← mapSet n [] (.chars k) v
    .ok (.map ps)
  | .map ps => do
    let ps ← mapSet n ps (.chars k) v
    .ok (.map ps)
  | _ => .abort

/-- `iVal ? bits(p) : nil` (lube/path.cpp:67, 79, 85). -/
def info (iVal : Bool) (p : Bytes) : Val := if iVal then bits p else .nil

/-- The loop of `Path::dir` (lube/path.cpp:66-67). -/
def dirLoop (n : Nat) (iVal : Bool) (p : Bytes) : List Bytes → Val → Outcome Val
  | [], d => .ok d
  | m :: ms, d => do
    let d ← setKey n d (join p m) (info iVal (join p m))
    dirLoop n iVal p ms d

/-- `Path::dir` (lube/path.cpp:59-69). -/
def dir (fs : Fs) (n : Nat) (p : Bytes) (iVal : Bool) : Outcome Val :=
  match fs.stat p with
  | .error => .thrown .ioFailure
  | .absent => .thrown (.error "dir: path doesn't exist")
  | .file | .closed => .thrown .ioFailure
  | .dir ms => dirLoop n iVal p ms .nil

/-- `recursive_directory_iterator` (lube/path.cpp:83-85) goes into directories that are not symbolic links right after it has visited
    them.  `walk` does so. -/
def enter (fs : Fs) (walk : Bytes → List Bytes → Val → Outcome Val) (q : Bytes) (d : Val) : Outcome Val :=
  if fs.link q then .ok d
  else match fs.stat q with
    | .dir es => walk q es d
    | .closed | .error => .thrown .ioFailure
    | .file | .absent => .ok d

/-- The loop of `Path::rdir` (lube/path.cpp:83-85) over the names in a directory. -/
def walkLoop (fs : Fs) (n : Nat) (iVal : Bool) (walk : Bytes → List Bytes → Val → Outcome Val) (p : Bytes) :
    List Bytes → Val → Outcome Val
  | [], d => .ok d
  | m :: ms, d => do
    let d ← setKey n d (join p m) (info iVal (join p m))
    let d ← enter fs walk (join p m) d
    walkLoop fs n iVal walk p ms d

/-- The directories below (lube/path.cpp:83-85); the first number bounds the depth. -/
def walk (fs : Fs) (n : Nat) (iVal : Bool) : Nat → Bytes → List Bytes → Val → Outcome Val
  | 0, _, _, _ => .diverge
  | d + 1, p, ms, v => walkLoop fs n iVal (walk fs n iVal d) p ms v

/-- `Path::rdir` (lube/path.cpp:71-87). -/
def rdir (fs : Fs) (n depth : Nat) (p : Bytes) (iVal : Bool) : Outcome Val :=
  match fs.stat p with
  | .error => .thrown .ioFailure
  | .absent => .thrown (.error "rdir: path doesn't exist")
  | .file => setKey n .nil p (info iVal p)
  | .closed => .thrown .ioFailure
  | .dir ms => walk fs n iVal depth p ms .nil

/-- The value assigned for an entry (lube/path.cpp:102-105); `tree` is the recursive call. -/
def branch (fs : Fs) (tree : Bytes → Outcome Val) (q : Bytes) : Outcome Val :=
  match fs.stat q with
  | .dir _ | .closed => tree q
  | .error => .thrown .ioFailure
  | .file | .absent => .ok .nil

/-- The loop of `Path::tree` (lube/path.cpp:100-105). -/
def treeLoop (fs : Fs) (n : Nat) (tree : Bytes → Outcome Val) (p : Bytes) : List Bytes → Val → Outcome Val
  | [], d => .ok d
  | m :: ms, d => do
    let v ← branch fs tree (join p m)
    let d ← setKey n d m v
    treeLoop fs n tree p ms d

/-- `Path::tree` (lube/path.cpp:89-108); the first number bounds the depth of the recursion. -/
def tree (fs : Fs) (n : Nat) : Nat → Bytes → Outcome Val
  | 0, _ => .diverge
  | d + 1, p =>
    match fs.stat p with
    | .error => .thrown .ioFailure
    | .absent => .thrown (.error "tree: path doesn't exist")
    | .file | .closed => .thrown .ioFailure
    | .dir ms => treeLoop fs n (tree fs n d) p ms .nil

end Libube.Path

import Verif.Model.MemProg

/-! # Downloads

libcurl is replaced by its contract: it calls the write function once for each chunk, gives up as soon as the
function returns anything but the size of the chunk, and reports success or the text of an error. -/

namespace Libube.Curl

open Mem

/-- `var::append(var)` (lube/var.h:143): insert at the end.  The argument is passed by value twice. -/
def append [Env α] (l : Loc) (v : V α) : M α Unit :=
  withVar v fun lv => do
    let w ← copyV (← readLoc lv)
    let n ← sizeV (← readLoc l)
    insert l w n

/-- `Easy::writeCallback` (lube/curl.cpp:113-121); `l` is `mData` and `chunk` the `iSize * iNMemb` bytes at
    `iPtr`.  The constructor of `str` (lube/var.cpp:428-433) is that of a literal of as many characters. -/
def writeCallback [Env α] (l : Loc) (chunk : List α) : M α Nat := do
  let str ← newStr chunk
  withVar str fun ls => do
    append l (← copyV (← readLoc ls))
    pure chunk.length

/-- The text of `CURLE_WRITE_ERROR`. -/
def writeError : String := "Failed writing received data to disk/application"

/-- The calls `curl_easy_perform` makes (lube/curl.cpp:74-79, 104). -/
def feed [Env α] (l : Loc) : List (List α) → M α Unit
  | [] => pure ()
  | c :: cs => do
    let n ← writeCallback l c
    if n = c.length then feed l cs else throwE (.error writeError)

/-- `Easy::perform` (lube/curl.cpp:102-111).  `res` is what `curl_easy_perform` reports in the end: nothing, or
    the text of an error. -/
def perform [Env α] (l : Loc) (chunks : List (List α)) (res : Option String) : M α (V α) := do
  feed l chunks
  match res with
  | some e => throwE (.error e)
  | none => copyV (← readLoc l)

/-- `Curly::transfer` (lube/curl.cpp:64-69) with the constructor of `Easy` (lube/curl.cpp:81-93): the `Easy`, and
    `mData` with it, is destroyed at the end.  The copies of the result on the way out are elided. -/
def transfer [Env α] (chunks : List (List α)) (res : Option String) : M α (V α) :=
  withVar .nil fun l => do
    assign l (← newStr [])
    perform l chunks res

end Libube.Curl

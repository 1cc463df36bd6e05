import Verif.Model.CString

/-! # lube/string.cpp: split, join, strip, case mapping -/

namespace Libube.StringFns

open Libube Libube.CString

/-- The `while ((p = strstr(source, iStr)))` loop of `var::split` (lube/string.cpp:155-164).
    Result: the final `source` and the pieces pushed to `r`.  `fuel` bounds the number of
    iterations; running out of it is the outcome `diverge`.  `r` is an array of strings, so
    `r.push(s)` appends one element (lube/var.cpp:1066-1089: `r` is nil or an array of vars). -/
def splitLoop : Nat → Bytes → Bytes → Int → List Bytes → Outcome (Bytes × List Bytes)
  | 0, _, _, _, _ => .diverge
  | fuel + 1, source, iStr, iMax, r =>
    match strstr source iStr with
    | none => .ok (source, r)
    | some len =>
      let r := r ++ [source.take len]
      let source := source.drop (len + iStr.length)
      if iMax ≠ 0 ∧ (r.length : Int) ≥ iMax - 1 then .ok (source, r)
      else splitLoop fuel source iStr iMax r

/-- `var::split(const char* iStr, int iMax)` (lube/string.cpp:148-168). -/
def split (fuel : Nat) (s iStr : Bytes) (iMax : Int) : Outcome (List Bytes) := do
  let source := cstr s
  let iStr := cstr iStr
  let (source, r) ← if iMax ≠ 1 then splitLoop fuel source iStr iMax [] else .ok (source, [])
  .ok (r ++ [source])

theorem words_dec (p : Bytes) (h : p ≠ []) :
    ((p.dropWhile (fun b => !isspace b)).dropWhile isspace).length < p.length := by
  obtain ⟨a, t, rfl⟩ := List.exists_cons_of_ne_nil h
  have h1 : ∀ (f : UInt8 → Bool) (l : Bytes), (l.dropWhile f).length ≤ l.length :=
    fun f l => (List.dropWhile_suffix f).length_le
  cases ha : isspace a with
  | false =>
    rw [List.dropWhile_cons_of_pos (by simp [ha])]
    have := h1 isspace (t.dropWhile (fun b => !isspace b))
    have := h1 (fun b => !isspace b) t
    simp only [List.length_cons]; omega
  | true =>
    rw [List.dropWhile_cons_of_neg (by simp [ha]), List.dropWhile_cons_of_pos ha]
    have := h1 isspace t
    simp only [List.length_cons]; omega

/-- The `while (*p)` loop of the white space split (lube/string.cpp:183-203). -/
def wordsLoop (p : Bytes) (iMax : Int) (r : List Bytes) : List Bytes :=
  if _h : p = [] then r
  else
    let w := p.takeWhile (fun b => !isspace b)
    let q := p.dropWhile (fun b => !isspace b)
    let r := if w.length > 0 then r ++ [w] else r
    let p' := q.dropWhile isspace
    if iMax ≠ 0 ∧ (r.length : Int) ≥ iMax - 1 ∧ p' ≠ [] then r ++ [p']
    else wordsLoop p' iMax r
termination_by p.length
decreasing_by exact words_dec p _h

/-- `var::split(int iMax)` (lube/string.cpp:177-206). -/
def splitWords (s : Bytes) (iMax : Int) : List Bytes :=
  wordsLoop ((cstr s).dropWhile isspace) iMax []

/-- The loop of `var::join` (lube/string.cpp:215-224) from index `i` on: `r` is the string built
    so far, `xs` the elements from `i` on.  `r.insert(x, r.size())` on a `char` array appends the
    characters of `x` (lube/var.cpp:1104-1140); `r` is a fresh string, so there is no aliasing. -/
def joinLoop (sep : Bytes) (i : Nat) (r : Bytes) : List Bytes → Bytes
  | [] => r
  | x :: xs => if i = 0 then joinLoop sep 1 (x ++ r) xs else joinLoop sep (i + 1) ((r ++ sep) ++ x) xs

/-- `var::join(const char* iStr)` on an array of strings (lube/string.cpp:208-227).  Lines
    210-211 (`*this` is itself a string) are not part of this function. -/
def join (xs : List Bytes) (iStr : Bytes) : Bytes := joinLoop (cstr iStr) 0 [] xs

/-- `Strip::string` when input and output are the same array (lube/string.cpp:230-249): the
    content after the call.  A negative count given to `memmove` (246) becomes a huge
    `size_t`; a negative size given to `resize` fails an assertion (lube/var.cpp:918). -/
def stripInPlace (s : Bytes) : Outcome Bytes :=
  let is := s.length
  let leading := (s.takeWhile isspace).length
  let trailing := (s.reverse.takeWhile isspace).length
  let newSize : Int := (is : Int) - leading - trailing
  if leading > 0 ∧ newSize < 0 then .ub .outOfBounds
  else
    let buf := if leading > 0 then
        (s.drop leading).take newSize.toNat ++ s.drop newSize.toNat
      else s
    if newSize ≠ is then
      if newSize < 0 then .abort else .ok (buf.take newSize.toNat)
    else .ok buf

/-- `Strip::string` when the output is a different variable (lube/string.cpp:230-242 and
    250-256), as called by `libube::strip(x)` with the freshly allocated `v` of
    `StringFunctor::operator()(const var&)` (47-55).  `op` is taken from the array owned by
    `oVar` alone (233); `oVar = ""` (252) drops that array's last reference and frees it; the
    loop at 254-255 then writes through `op`. -/
def stripOutOfPlace (s : Bytes) : Outcome Bytes :=
  let is := s.length
  let leading := (s.takeWhile isspace).length
  let trailing := (s.reverse.takeWhile isspace).length
  let newSize : Int := (is : Int) - leading - trailing
  if newSize < 0 then .abort
  else if newSize > 0 then .ub .useAfterFree
  else .ok []

/-- `ToUpper::string` (lube/string.cpp:319-331). -/
def upper (s : Bytes) : Bytes := s.map CString.toupper

/-- `ToLower::string` (lube/string.cpp:333-345). -/
def lower (s : Bytes) : Bytes := s.map CString.tolower

end Libube.StringFns

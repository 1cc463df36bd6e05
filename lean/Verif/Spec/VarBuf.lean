import Verif.Model.VarBuf

/-! # Specification of the stream: an array of bytes with a read cursor (C16, C17) -/

namespace Libube.VarBufSpec

open Libube.CString Libube.VarBuf

/-- Content and position of the next byte to read. -/
structure Cursor where
  bytes : Bytes
  pos : Nat

/-- What one call answers (`none`: end of file / failure) and does.  Seeking answers the
    position; here it is only specified for positions inside the content. -/
def Cursor.step (c : Cursor) : Op → Option UInt8 × Cursor
  | .put b => (some b, { c with bytes := c.bytes ++ [b] })
  | .get => match c.bytes[c.pos]? with
    | some b => (some b, { c with pos := c.pos + 1 })
    | none => (none, c)
  | .peek => (c.bytes[c.pos]?, c)
  | .unget => if c.pos = 0 then (none, c) else (c.bytes[c.pos - 1]?, { c with pos := c.pos - 1 })
  | .seek p => (none, { c with pos := p.toNat })

/-- Answers of a sequence of calls, seeks left out, and the final state. -/
def Cursor.run (c : Cursor) : List Op → List (Option UInt8) × Cursor
  | [] => ([], c)
  | op :: ops =>
    let (r, c') := c.step op
    let (rs, c'') := c'.run ops
    (r :: rs, c'')

/-- Every seek in the sequence goes to a position inside the content at that time. -/
def SeeksInside (c : Cursor) : List Op → Prop
  | [] => True
  | op :: ops => (∀ p, op = .seek p → 0 ≤ p ∧ p < c.bytes.length) ∧ SeeksInside (c.step op).2 ops

end Libube.VarBufSpec

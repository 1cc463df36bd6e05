import Verif.Spec.VarBuf
import Mathlib.Data.List.Basic

/-! # C16, C17: streams over strings -/

namespace Libube.VarBuf

open Libube Libube.CString Libube.VarBufSpec

theorem asChar_charInt (b : UInt8) (h : b ≠ 0xFF) : asChar (charInt b) = some b := by
  have key : ∀ n : Fin 256, UInt8.ofNat n.1 ≠ 0xFF →
      asChar (charInt (UInt8.ofNat n.1)) = some (UInt8.ofNat n.1) := by
    set_option maxRecDepth 4000 in decide
  have := key ⟨b.toNat, b.toNat_lt⟩
  simpa using this (by simpa using h)

theorem asChar_toNat (b : UInt8) : asChar (b.toNat : Int) = some b := by
  unfold asChar eof
  rw [if_neg (by omega)]
  congr 1
  apply UInt8.toNat_inj.1
  rw [UInt8.ofInt, UInt8.toNat_ofNat']
  have := b.toNat_lt
  omega

/-- What an observer sees of an answer: for seeks nothing, otherwise end of file or a character. -/
def observe (op : Op) (r : Int) : Option UInt8 :=
  match op with
  | .seek _ => none
  | _ => asChar r

theorem step_refines (v : Buf) (c : Cursor) (op : Op) (h1 : v.data = c.bytes)
    (h2 : v.ind = c.pos) (hp : c.pos ≤ c.bytes.length) (hb : (0xFF : UInt8) ∉ c.bytes)
    (hs : ∀ p, op = .seek p → 0 ≤ p ∧ p < c.bytes.length) :
    ∃ r v', v.step op = .ok (r, v') ∧ observe op r = (c.step op).1 ∧
      v'.data = (c.step op).2.bytes ∧ v'.ind = (c.step op).2.pos ∧
      (c.step op).2.pos ≤ (c.step op).2.bytes.length := by
  obtain ⟨d, i⟩ := v
  obtain ⟨bs, p⟩ := c
  simp only at h1 h2 hp hb hs
  subst h1 h2
  have hget : ∀ (q : Nat) (hq : q < d.length), (Buf.mk d p).elem (q : Int) = .ok (charInt d[q]) ∧
      asChar (charInt d[q]) = some d[q] := by
    intro q hq
    constructor
    · simp [Buf.elem, hq]
    · exact asChar_charInt _ (fun h => hb (h ▸ List.getElem_mem hq))
  cases op with
  | put b =>
    refine ⟨_, ⟨d ++ [b], p⟩, ?_, asChar_toNat b, rfl, rfl, by simp [Cursor.step]; omega⟩
    have : UInt8.ofInt (b.toNat : Int) = b := by
      have := asChar_toNat b
      unfold asChar eof at this
      rw [if_neg (by omega)] at this
      exact Option.some.inj this
    simp only [Buf.step, Buf.overflow, this]
    rw [if_pos (by unfold eof; omega)]
  | get =>
    by_cases h : p < d.length
    · obtain ⟨e1, e2⟩ := hget p h
      refine ⟨charInt d[p], ⟨d, p + 1⟩, ?_, ?_, ?_, ?_, ?_⟩
      · simp [Buf.step, Buf.uflow, h, e1]
      · simp [observe, e2, Cursor.step, h]
      · simp [Cursor.step, h]
      · simp [Cursor.step, h]
      · simp [Cursor.step, h]; omega
    · refine ⟨eof, ⟨d, p⟩, ?_, ?_, ?_, ?_, ?_⟩
      · simp [Buf.step, Buf.uflow, h]
      · simp [observe, asChar, Cursor.step, h]
      · simp [Cursor.step, h]
      · simp [Cursor.step, h]
      · simp [Cursor.step, h]; omega
  | peek =>
    by_cases h : p < d.length
    · obtain ⟨e1, e2⟩ := hget p h
      refine ⟨charInt d[p], ⟨d, p⟩, ?_, ?_, rfl, rfl, hp⟩
      · simp [Buf.step, Buf.underflow, h, e1]
      · simp [observe, e2, Cursor.step, h]
    · refine ⟨eof, ⟨d, p⟩, ?_, ?_, rfl, rfl, hp⟩
      · simp [Buf.step, Buf.underflow, h]
      · simp [observe, asChar, Cursor.step, h]
  | unget =>
    by_cases h : p = 0
    · refine ⟨eof, ⟨d, p⟩, ?_, ?_, ?_, ?_, ?_⟩
      · simp [Buf.step, Buf.pbackfail, h]
      · simp [observe, asChar, Cursor.step, h]
      · simp [Cursor.step, h]
      · simp [Cursor.step, h]
      · simp [Cursor.step, h]
    · obtain ⟨e1, e2⟩ := hget (p - 1) (by omega)
      have e3 : ((p - 1 : Nat) : Int) = (p : Int) - 1 := by omega
      rw [e3] at e1
      refine ⟨charInt d[p - 1], ⟨d, (p : Int) - 1⟩, ?_, ?_, ?_, ?_, ?_⟩
      · have : (p : Int) > 0 := by omega
        simp only [Buf.step, Buf.pbackfail]
        rw [if_pos this, e1]
        rfl
      · have : p - 1 < d.length := by omega
        simp [observe, e2, Cursor.step, h, this]
      · simp [Cursor.step, h]
      · simp [Cursor.step, h]; omega
      · simp [Cursor.step, h]; omega
  | seek q =>
    obtain ⟨h0, h1⟩ := hs q rfl
    refine ⟨q, ⟨d, q⟩, ?_, rfl, rfl, ?_, ?_⟩
    · simp [Buf.step, Buf.seekpos, h1]
    · simp [Cursor.step]; omega
    · simp [Cursor.step]; omega

/-- C17 (and C16) for contents without the byte 0xFF: under every sequence of puts, gets, peeks,
    ungets and seeks to positions inside the content, the stream answers like an array of bytes
    with a read cursor and ends in the same state.  Missing for the full claim: the byte 0xFF,
    for which it is false (`byte_ff_reads_as_eof`). -/
theorem stream_refines_partial (s : Bytes) (ops : List Op) (hs : (0xFF : UInt8) ∉ s)
    (hput : ∀ b, .put b ∈ ops → b ≠ 0xFF) (hin : SeeksInside ⟨s, 0⟩ ops) :
    ∃ rs v, (Buf.init s).run ops = .ok (rs, v) ∧
      List.zipWith observe ops rs = (Cursor.run ⟨s, 0⟩ ops).1 ∧ rs.length = ops.length ∧
      v.data = (Cursor.run ⟨s, 0⟩ ops).2.bytes ∧ v.ind = (Cursor.run ⟨s, 0⟩ ops).2.pos := by
  have gen : ∀ (ops : List Op) (v : Buf) (c : Cursor), v.data = c.bytes → v.ind = c.pos →
      c.pos ≤ c.bytes.length → (0xFF : UInt8) ∉ c.bytes → (∀ b, .put b ∈ ops → b ≠ 0xFF) →
      SeeksInside c ops →
      ∃ rs v', v.run ops = .ok (rs, v') ∧
        List.zipWith observe ops rs = (c.run ops).1 ∧ rs.length = ops.length ∧
        v'.data = (c.run ops).2.bytes ∧ v'.ind = (c.run ops).2.pos := by
    intro ops
    induction ops with
    | nil => intro v c h1 h2 _ _ _ _; exact ⟨[], v, rfl, rfl, rfl, h1, h2⟩
    | cons op ops ih =>
      intro v c h1 h2 h3 h4 h5 h6
      obtain ⟨r, v1, e, o, d1, d2, d3⟩ := step_refines v c op h1 h2 h3 h4 h6.1
      have hff : (0xFF : UInt8) ∉ (c.step op).2.bytes := by
        cases op with
        | put b =>
          simp only [Cursor.step, List.mem_append, List.mem_singleton, not_or]
          exact ⟨h4, fun h => h5 b (by simp) h.symm⟩
        | get => simp only [Cursor.step]; split <;> exact h4
        | peek => exact h4
        | unget => simp only [Cursor.step]; split <;> exact h4
        | seek p => exact h4
      obtain ⟨rs, v2, e2, o2, l2, d4, d5⟩ :=
        ih v1 _ d1 d2 d3 hff (fun b hb => h5 b (by simp [hb])) h6.2
      refine ⟨r :: rs, v2, ?_, ?_, ?_, d4, d5⟩
      · simp [Buf.run, e, e2]
      · simp [Cursor.run, o, o2]
      · simp [l2]
  exact gen ops (Buf.init s) ⟨s, 0⟩ rfl rfl (by simp) hs hput hin

-- put a, get, peek, unget, seek 0, get on the content "x"
example : SeeksInside ⟨[120], 0⟩ [.put 97, .get, .peek, .unget, .seek 1, .get] ∧
    (Cursor.run ⟨[120], 0⟩ [.put 97, .get, .peek, .unget, .seek 1, .get]).1 =
      [some 97, some 120, some 97, some 120, none, some 97] := by
  constructor
  · simp [SeeksInside, Cursor.step]
  · rfl

/-- C16 for byte strings without 0xFF: whatever was in the string before, writing `w` and then
    reading to the end delivers the old content followed by `w`, in order, then end of file.
    Interleavings are covered by `stream_refines_partial`.  Missing: as there. -/
theorem write_then_read_partial (s w : Bytes) (hs : (0xFF : UInt8) ∉ s) (hw : (0xFF : UInt8) ∉ w) :
    ∃ rs v, (Buf.init s).run (w.map Op.put ++ List.replicate ((s ++ w).length + 1) .get) =
        .ok (rs, v) ∧
      (rs.drop w.length).map asChar = (s ++ w).map some ++ [none] := by
  obtain ⟨rs, v, e, o, l, -, -⟩ := stream_refines_partial s
    (w.map Op.put ++ List.replicate ((s ++ w).length + 1) .get) hs
    (by
      intro b hb
      simp only [List.mem_append, List.mem_map, List.mem_replicate, reduceCtorEq, and_false,
        or_false, Op.put.injEq, exists_eq_right] at hb
      exact fun h => hw (h ▸ hb))
    (by
      have : ∀ (ops : List Op) (c : Cursor), (∀ p, .seek p ∉ ops) → SeeksInside c ops := by
        intro ops
        induction ops with
        | nil => intros; trivial
        | cons op ops ih =>
          intro c h
          exact ⟨fun p hp => absurd (hp ▸ List.mem_cons_self) (h p), ih _ fun p hp => h p (by simp [hp])⟩
      exact this _ _ (by simp))
  refine ⟨rs, v, e, ?_⟩
  have hputs : ∀ (w : Bytes) (ops : List Op) (c : Cursor), (c.run (w.map Op.put ++ ops)).1 =
      w.map some ++ (Cursor.run ⟨c.bytes ++ w, c.pos⟩ ops).1 := by
    intro w
    induction w with
    | nil => intro ops c; simp
    | cons b w ih => intro ops c; simp [Cursor.run, Cursor.step, ih]
  have hgets : ∀ (t u : Bytes), (Cursor.run ⟨t ++ u, t.length⟩ (List.replicate (u.length + 1) .get)).1 =
      u.map some ++ [none] := by
    intro t u
    induction u generalizing t with
    | nil => simp [Cursor.run, Cursor.step]
    | cons b u ih =>
      rw [List.length_cons, List.replicate_succ]
      simp only [Cursor.run, Cursor.step]
      have : (t ++ b :: u)[t.length]? = some b := by simp
      rw [this]
      have := ih (t ++ [b])
      simp only [List.append_assoc, List.singleton_append, List.length_append, List.length_singleton] at this
      simp [this]
  have ho := o
  rw [hputs] at ho
  have h0 := hgets [] (s ++ w)
  simp only [List.nil_append, List.length_nil] at h0
  simp only [h0] at ho
  -- drop the answers to the puts
  have hd := congrArg (List.drop w.length) ho
  rw [List.drop_append_of_le_length (by simp)] at hd
  simp only [List.drop_zipWith] at hd
  rw [show List.drop w.length (w.map Op.put ++ List.replicate ((s ++ w).length + 1) .get) =
      List.replicate ((s ++ w).length + 1) Op.get by
    rw [List.drop_append_of_le_length (by simp)]; simp] at hd
  have hz : ∀ (n : Nat) (l : List Int), l.length = n →
      List.zipWith observe (List.replicate n .get) l = l.map asChar := by
    intro n
    induction n with
    | zero => intro l hl; rw [List.length_eq_zero_iff.1 hl]; rfl
    | succ n ih =>
      intro l hl
      cases l with
      | nil => simp at hl
      | cons x l =>
        rw [List.replicate_succ, List.zipWith_cons_cons, ih l (by simpa using hl)]
        rfl
  rw [hz _ _ (by rw [List.length_drop, l]; simp)] at hd
  rw [hd]
  simp

example : (0xFF : UInt8) ∉ ([104, 105] : Bytes) := by decide

/-- C16 and C17 fail for the byte 0xFF: it is written, but reading reports end of file, while the
    position moves past it. -/
theorem byte_ff_reads_as_eof (s : Bytes) :
    (Buf.init (0xFF :: s)).run [.get] = .ok ([eof], ⟨0xFF :: s, 1⟩) ∧ asChar eof = none := by
  constructor
  · have h : charInt 255 = eof := by decide
    have h' : (0 : Int) < (s.length : Int) + 1 := by omega
    simp [Buf.run, Buf.step, Buf.uflow, Buf.init, Buf.elem, h, h']
  · simp [asChar]

/-- Seeking to the end of the content, which a cursor could do, is ignored. -/
theorem seek_to_end_ignored (v : Buf) : v.step (.seek v.data.length) = .ok ((v.data.length : Int), v) := by
  simp [Buf.step, Buf.seekpos]

#print axioms stream_refines_partial
#print axioms write_then_read_partial
#print axioms byte_ff_reads_as_eof
#print axioms seek_to_end_ignored

end Libube.VarBuf

import Verif.Spec.Curl
import Verif.Lemmas.Curl
import Verif.Props.MemArray

/-! # C73: downloaded data is the concatenation of the received chunks -/

namespace Libube.Curl

open Mem MemSpec

/-- Arrays other than the new one. -/
theorem others {s : State α} {b : Addr} {x : Option (Obj α)} {n : Nat} (stk : List (V α)) (hb : b ≠ s.mem.length ∨ x = none) :
    let s' : State α := { mem := s.mem ++ [x] ++ List.replicate n none, stk := stk }
    (Allocated s' b ↔ Allocated s b) ∧ (Allocated s b → s'.mem[b]? = s.mem[b]?) := by
  intro s'
  have key : ∀ y, s'.mem[b]? = some (some y) ↔ s.mem[b]? = some (some y) := by
    intro y
    simp only [s', List.append_assoc]
    by_cases h : b < s.mem.length
    · rw [List.getElem?_append_left h]
    · rw [List.getElem?_append_right (by omega), List.getElem?_eq_none (by omega : s.mem.length ≤ b)]
      constructor
      · intro h1
        rw [List.getElem?_append] at h1
        split at h1
        · have h2 : b - s.mem.length = 0 := by simp at *; omega
          rcases hb with hb | rfl
          · exact absurd (by omega) hb
          · simp [h2] at h1
        · simp [List.getElem?_replicate] at h1
      · intro h1; cases h1
  refine ⟨⟨fun ⟨y, h⟩ => ⟨y, (key y).1 h⟩, fun ⟨y, h⟩ => ⟨y, (key y).2 h⟩⟩, ?_⟩
  rintro ⟨y, h⟩
  rw [h]
  exact (key y).2 h

/-- However the body is cut into chunks, the download is a new string with the bytes of the body, NUL bytes
    included, and all the temporaries are gone.  Missing for all of C73: bodies of more than 2^30 - 2 bytes. -/
theorem download_partial [Env α] (hc : ConvSame α) (s : State α) (chunks : List (List α)) (hn : Fits chunks.flatten) :
    ∃ v s', transfer chunks none s = .ok v s' ∧ NewString s s' v chunks.flatten := by
  have hf : chunks.flatten.length + 2 ≤ 2 ^ 30 := hn
  obtain ⟨o, h1, h2, h3, h4⟩ := data_run hc chunks s (by omega)
  let s1 : State α := { mem := s.mem ++ [some o] ++ List.replicate chunks.length none, stk := s.stk ++ [.arr s.mem.length] }
  have ho : s1.mem[s.mem.length]? = some (some o) := by simp [s1]
  let s2 : State α := { mem := s.mem ++ [some o] ++ List.replicate chunks.length none, stk := s.stk }
  refine ⟨.arr s.mem.length, s2, ?_, rfl, s.mem.length, o, rfl, Nat.le_refl _, by simp [s2], h4, ⟨h2, h3.size, h3.elem⟩, ?_, ?_⟩
  · refine withVar_run (w := .arr s.mem.length) (s1 := upd s1 s.mem.length { o with rc := o.rc + 1 }) ?_ rfl ?_
    · refine (h1 _ _).trans ?_
      exact (bind_eq (readTemp _ _ _)).trans (copyV_run (s := s1) (v := .arr s.mem.length) rfl ho)
    · have := detach_run (v := V.arr s.mem.length) (a := s.mem.length) (o := { o with rc := o.rc + 1 })
        (s := upd s2 s.mem.length { o with rc := o.rc + 1 }) rfl (upd_get (s := s2) ho _) (by simp; omega)
      refine this.trans ?_
      rw [upd_upd]
      exact congrArg _ (upd_self (s := s2) ho)
  · rw [h3.size]
    exact h3.nul trivial h2
  · intro b hb
    exact others _ (.inl hb)

example : @ConvSame Int MemProps.intEnv ∧ Fits [[(72 : Int), 105], [], [0, 33]].flatten := ⟨MemProps.intConv, by simp [Fits]⟩

/-- If the transfer fails, however many chunks have been received, the error is reported and nothing is left. -/
theorem failed_download_partial [Env α] (hc : ConvSame α) (s : State α) (chunks : List (List α)) (hn : Fits chunks.flatten)
    (e : String) : ∃ s', transfer chunks (some e) s = .thrown (.error e) s' ∧ Unchanged s s' := by
  have hf : chunks.flatten.length + 2 ≤ 2 ^ 30 := hn
  obtain ⟨o, h1, h2, h3, h4⟩ := data_run hc chunks s (by omega)
  let s2 : State α := { mem := s.mem ++ [none] ++ List.replicate chunks.length none, stk := s.stk }
  have h5 : (newStr [] >>= fun v => assign (.slot s.stk.length) v >>= fun _ =>
        perform (.slot s.stk.length) chunks (some e)) { s with stk := s.stk ++ [.nil] } = _ := h1 _ _
  have h6 : detachV (.arr s.mem.length) { mem := s.mem ++ [some o] ++ List.replicate chunks.length none, stk := s.stk } =
      .ok () s2 := by
    rw [detach_dec (a := s.mem.length) (o := o) rfl (by simp) (by omega) h3.ptrs]
    simp [dec, h4, s2]
  refine ⟨s2, ?_, rfl, fun b => others _ (.inr rfl)⟩
  unfold transfer withVar
  simp only
  rw [h5]
  rw [List.append_assoc, List.singleton_append] at h6
  simp [throwE, h6]

example : @ConvSame Int MemProps.intEnv ∧ Fits [[(72 : Int), 105]].flatten := ⟨MemProps.intConv, by simp [Fits]⟩

end Libube.Curl

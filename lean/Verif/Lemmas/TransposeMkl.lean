import Verif.Spec.TransposeMkl
import Verif.Lemmas.Transpose
import Verif.Lemmas.DftRun

/-! # Lemmas about transposition with the MKL -/

namespace Libube.TransposeMkl

open View Transpose ViewSpec TransposeSpec TransposeMklSpec

/-! ### Accesses that are in bounds and that are not -/

theorem load_cases (d : List α) (i : Int) : (∃ x, load d i = .ok x ∧ 0 ≤ i ∧ i < d.length) ∨ load d i = .ub .outOfBounds := by
  unfold load
  split
  · exact .inr rfl
  · cases h : d[i.toNat]? with
    | none => exact .inr rfl
    | some x => exact .inl ⟨x, rfl, by omega, by have := (List.getElem?_eq_some_iff.1 h).1; omega⟩

theorem store_cases (d : List α) (i : Int) (x : α) : (∃ y, store d i x = .ok y ∧ y.length = d.length ∧ 0 ≤ i ∧ i < d.length) ∨ store d i x = .ub .outOfBounds := by
  unfold store
  split
  · rename_i h
    exact .inl ⟨_, rfl, by simp, h.1, h.2⟩
  · exact .inr rfl

theorem outCols_cases (src : List α) (si : Int) (R C r : Nat) (di : Int) : ∀ (n c : Nat) (dst : List α),
    (∃ y, outCols src si R C r di c n dst = .ok y ∧ y.length = dst.length ∧ ∀ c', c ≤ c' → c' < c + n →
      (0 ≤ si + (r * C + c' : Nat) ∧ si + (r * C + c' : Nat) < src.length) ∧ 0 ≤ di + (c' * R + r : Nat) ∧ di + (c' * R + r : Nat) < dst.length) ∨
    outCols src si R C r di c n dst = .ub .outOfBounds
  | 0, c, dst => .inl ⟨dst, rfl, rfl, fun c' h1 h2 => by omega⟩
  | n + 1, c, dst => by
    rw [outCols]
    rcases load_cases src (si + (r * C + c : Nat)) with ⟨x, e, h⟩ | e <;> rw [e]
    · rw [Outcome.bind_ok]
      rcases store_cases dst (di + (c * R + r : Nat)) x with ⟨d, e', hl, h'⟩ | e' <;> rw [e']
      · rw [Outcome.bind_ok]
        rcases outCols_cases src si R C r di n (c + 1) d with ⟨y, e2, l2, h2⟩ | e2
        · refine .inl ⟨y, e2, l2.trans hl, fun c' g1 g2 => ?_⟩
          by_cases hc : c' = c
          · subst hc; exact ⟨h, h'⟩
          · have := h2 c' (by omega) (by omega)
            rwa [hl] at this
        · exact .inr e2
      · exact .inr rfl
    · exact .inr rfl

theorem outRows_cases (src : List α) (si : Int) (R C : Nat) (di : Int) : ∀ (n r : Nat) (dst : List α),
    (∃ y, outRows src si R C di r n dst = .ok y ∧ y.length = dst.length ∧ ∀ r', r ≤ r' → r' < r + n → ∀ c', c' < C →
      (0 ≤ si + (r' * C + c' : Nat) ∧ si + (r' * C + c' : Nat) < src.length) ∧ 0 ≤ di + (c' * R + r' : Nat) ∧ di + (c' * R + r' : Nat) < dst.length) ∨
    outRows src si R C di r n dst = .ub .outOfBounds
  | 0, r, dst => .inl ⟨dst, rfl, rfl, fun r' h1 h2 => by omega⟩
  | n + 1, r, dst => by
    rw [outRows]
    rcases outCols_cases src si R C r di C 0 dst with ⟨d, e, hl, h⟩ | e <;> rw [e]
    · rw [Outcome.bind_ok]
      rcases outRows_cases src si R C di n (r + 1) d with ⟨y, e2, l2, h2⟩ | e2
      · refine .inl ⟨y, e2, l2.trans hl, fun r' g1 g2 c' hc => ?_⟩
        by_cases hr : r' = r
        · subst hr; exact h c' (by omega) (by omega)
        · have := h2 r' (by omega) (by omega) c' hc
          rwa [hl] at this
      · exact .inr e2
    · exact .inr rfl

/-- Copying a matrix out of place needs all its elements and all of the room for them. -/
theorem outOfPlace_cases (src : List α) (si : Int) (R C : Nat) (dst : List α) (di : Int) (hRC : 0 < R * C) :
    (0 ≤ si ∧ si + (R * C : Nat) ≤ src.length ∧ 0 ≤ di ∧ di + (C * R : Nat) ≤ dst.length) ∨ outOfPlace src si R C dst di = .ub .outOfBounds := by
  unfold outOfPlace
  rcases outRows_cases src si R C di R 0 dst with ⟨y, e, hl, h⟩ | e
  · left
    have hR : 0 < R := Nat.pos_of_mul_pos_right hRC
    have hC : 0 < C := Nat.pos_of_mul_pos_left hRC
    have h1 := h 0 (by omega) (by omega) 0 hC
    have h2 := h (R - 1) (by omega) (by omega) (C - 1) (by omega)
    have e1 : (R - 1) * C + (C - 1) + 1 = R * C := by
      obtain ⟨r, rfl⟩ : ∃ r, R = r + 1 := ⟨R - 1, by omega⟩
      rw [Nat.add_sub_cancel, Nat.add_mul]; omega
    have e2 : (C - 1) * R + (R - 1) + 1 = C * R := by
      obtain ⟨r, rfl⟩ : ∃ r, C = r + 1 := ⟨C - 1, by omega⟩
      rw [Nat.add_sub_cancel, Nat.add_mul]; omega
    simp only [Nat.zero_mul, Nat.add_zero] at h1
    refine ⟨by omega, by omega, by omega, by omega⟩
  · exact .inr e

theorem readRow_cases (src : List α) (p : Int) : ∀ (n i : Nat),
    (∃ row, Dft.readRow src p i n = .ok row ∧ row.length = n ∧ ∀ t, t < n → 0 ≤ p + (i + t : Nat) ∧ p + (i + t : Nat) < src.length) ∨
    Dft.readRow src p i n = .ub .outOfBounds
  | 0, i => .inl ⟨[], rfl, rfl, fun t h => by omega⟩
  | n + 1, i => by
    rw [Dft.readRow]
    rcases load_cases src (p + i) with ⟨x, e, h⟩ | e <;> rw [e]
    · rw [Outcome.bind_ok]
      rcases readRow_cases src p n (i + 1) with ⟨row, e2, l2, h2⟩ | e2 <;> rw [e2]
      · refine .inl ⟨_, rfl, by simp [l2], fun t ht => ?_⟩
        cases t with
        | zero => exact h
        | succ t =>
          have := h2 t (by omega)
          rwa [show i + 1 + t = i + (t + 1) by omega] at this
      · exact .inr rfl
    · exact .inr rfl

theorem writeRow_cases (q : Int) : ∀ (ys : List α) (i : Nat) (dst : List α),
    (∃ d, Dft.writeRow q i ys dst = .ok d ∧ ∀ t, t < ys.length → 0 ≤ q + (i + t : Nat) ∧ q + (i + t : Nat) < dst.length) ∨
    Dft.writeRow q i ys dst = .ub .outOfBounds
  | [], i, dst => .inl ⟨dst, rfl, fun t h => absurd h (by simp)⟩
  | y :: ys, i, dst => by
    rw [Dft.writeRow]
    rcases store_cases dst (q + i) y with ⟨d, e, hl, h⟩ | e <;> rw [e]
    · rw [Outcome.bind_ok]
      rcases writeRow_cases q ys (i + 1) d with ⟨d', e2, h2⟩ | e2 <;> rw [e2]
      · refine .inl ⟨_, rfl, fun t ht => ?_⟩
        cases t with
        | zero => exact h
        | succ t =>
          have := h2 t (by simpa using ht)
          rwa [show i + 1 + t = i + (t + 1) by omega, hl] at this
      · exact .inr rfl
    · exact .inr rfl

/-! ### One matrix -/

/-- What reading a matrix without gaps and writing its transpose gives. -/
theorem copy_block {src : List α} {p R C : Nat} (hs : p + R * C ≤ src.length) {f : List α → List α}
    (hf : ∀ xs : List α, xs.length = R * C → IsTranspose R C xs (f xs)) (q : Nat) (dst : List α) (hd : q + C * R ≤ dst.length) :
    ∃ xs d, Dft.readRow src (p : Int) 0 (R * C) = .ok xs ∧ Dft.writeRow (q : Int) 0 (f xs) dst = .ok d ∧ d.length = dst.length ∧
      (∀ r c, r < R → c < C → d[q + (c * R + r)]? = src[p + (r * C + c)]?) ∧ (∀ k, (∀ j, j < C * R → k ≠ q + j) → d[k]? = dst[k]?) := by
  have hlen : ((src.drop p).take (R * C)).length = R * C := by rw [List.length_take, List.length_drop]; omega
  have hr := Dft.readRow_eq (src := src) (p := p) ((src.drop p).take (R * C)) 0 (fun t ht => by
    rw [hlen] at ht
    rw [List.getElem?_take_of_lt ht, List.getElem?_drop, Nat.zero_add])
  rw [hlen] at hr
  obtain ⟨_, g2, g3⟩ := hf _ hlen
  obtain ⟨d, e, h1, h2, h3⟩ := Dft.writeRow_eq (q := q) (f ((src.drop p).take (R * C))) 0 dst (by omega)
  refine ⟨_, d, hr, e, h1, fun r c hr hc => ?_, fun k hk => h3 k ?_⟩
  · have := h2 (c * R + r) (by rw [g2]; exact lt_of hc hr)
    rw [Nat.add_zero] at this
    rw [this, g3 r c hr hc, List.getElem?_take_of_lt (lt_of hr hc), List.getElem?_drop]
  · rw [g2, Nat.add_zero]
    by_contra hc
    exact hk (k - q) (by omega) (by omega)

theorem same_list {d e dst : List α} {q R C : Nat} {src : Nat → Nat → Option α} (hd : ∀ r c, r < R → c < C → d[q + (c * R + r)]? = src r c)
    (he : ∀ r c, r < R → c < C → e[q + (c * R + r)]? = src r c) (hd' : ∀ k, (∀ j, j < C * R → k ≠ q + j) → d[k]? = dst[k]?)
    (he' : ∀ k, (∀ j, j < C * R → k ≠ q + j) → e[k]? = dst[k]?) : d = e := by
  apply List.ext_getElem?
  intro k
  by_cases h : ∀ j, j < C * R → k ≠ q + j
  · rw [hd' k h, he' k h]
  · obtain ⟨j, hj, rfl⟩ : ∃ j, j < C * R ∧ k = q + j := by
      by_contra hc
      exact h fun j hj he => hc ⟨j, hj, he⟩
    obtain ⟨h1, h2, h3⟩ := split_of hj
    rw [← h3, hd _ _ h2 h1, he _ _ h2 h1]

/-- Out of place the library does what the loop does, in bounds or not. -/
theorem copy_eq {f : List α → List α} {R C : Nat} (hf : ∀ xs : List α, xs.length = R * C → IsTranspose R C xs (f xs)) (src : List α) (p : Int)
    (dst : List α) (q : Int) :
    (do let xs ← Dft.readRow src p 0 (R * C); Dft.writeRow q 0 (f xs) dst) = outOfPlace src p R C dst q := by
  rcases Nat.eq_zero_or_pos (R * C) with h0 | hpos
  · have hlen : (f []).length = 0 := by rw [(hf [] (by rw [h0]; rfl)).size_out, Nat.mul_comm, h0]
    rw [h0]
    simp only [Dft.readRow, Outcome.bind_ok]
    rw [List.length_eq_zero_iff.1 hlen]
    have hz : ∀ (n r : Nat), R = 0 ∧ n = 0 ∨ C = 0 → outRows src p R C q r n dst = .ok dst := by
      intro n
      induction n with
      | zero => intro r _; rfl
      | succ n ih =>
        intro r h
        rcases h with ⟨_, h⟩ | h
        · omega
        · subst h
          rw [outRows, outCols, Outcome.bind_ok]
          exact ih (r + 1) (.inr rfl)
    unfold outOfPlace
    rw [hz R 0 (by rcases Nat.mul_eq_zero.1 h0 with h | h; exact .inl ⟨h, h⟩; exact .inr h)]
    rfl
  · rcases outOfPlace_cases src p R C dst q hpos with ⟨h1, h2, h3, h4⟩ | e
    · obtain ⟨p, rfl⟩ : ∃ n : Nat, p = n := ⟨p.toNat, by omega⟩
      obtain ⟨q, rfl⟩ : ∃ n : Nat, q = n := ⟨q.toNat, by omega⟩
      obtain ⟨xs, d, e1, e2, g1, g2, g3⟩ := copy_block (src := src) (p := p) (by omega) hf q dst (by omega)
      obtain ⟨d', e', k1, k2, k3⟩ := outOfPlace_block (src := src) (si := p) (R := R) (C := C) (by omega) q dst (by omega)
      rw [e1, Outcome.bind_ok, e2, e', same_list g2 k2 g3 k3]
    · rcases readRow_cases src p (R * C) 0 with ⟨xs, e1, l1, h1⟩ | e1
      · rw [e1, Outcome.bind_ok]
        rcases writeRow_cases q (f xs) 0 dst with ⟨d, e2, h2⟩ | e2
        · exfalso
          rw [(hf xs l1).size_out] at h2
          have hpos' : 0 < C * R := by rwa [Nat.mul_comm]
          have a1 := h1 0 hpos
          have a2 := h1 (R * C - 1) (by omega)
          have b1 := h2 0 hpos'
          have b2 := h2 (C * R - 1) (by omega)
          obtain ⟨p, rfl⟩ : ∃ n : Nat, p = n := ⟨p.toNat, by omega⟩
          obtain ⟨q, rfl⟩ : ∃ n : Nat, q = n := ⟨q.toNat, by omega⟩
          obtain ⟨d', e', -⟩ := outOfPlace_block (src := src) (si := p) (R := R) (C := C) (by omega) q dst (by omega)
          rw [e'] at e
          cases e
        · rw [e2, e]
      · rw [e1, e]
        rfl

theorem vectorOut_eq {L : Lib α} (hL : Contract L) (a out : Arr α) : vectorOut L a out = Transpose.vectorOut a out := by
  funext offI offO dst
  unfold vectorOut Transpose.vectorOut
  cases shape a ((dim a : Int) - 2) with
  | ok rows =>
    cases shape a ((dim a : Int) - 1) with
    | ok cols =>
      cases offset a with
      | ok o =>
        cases offset out with
        | ok o' =>
          simp only [Outcome.bind_ok]
          exact copy_eq (f := L.omatcopy rows.toNat cols.toNat cols.toNat rows.toNat) (hL.omatcopy _ _) a.data (o + offI) dst (o' + offO)
        | _ => rfl
      | _ => rfl
    | _ => rfl
  | _ => rfl

theorem vectorOf_eq (k : Kind) : vectorOf (α := α) k = Transpose.vectorOf k := by
  funext f offI offO dst
  cases k <;> rfl

/-- In place it does what following the cycles does. -/
theorem vectorIn_eq {L : Lib α} (hL : Contract L) {a : Arr α} {o : Nat} {lead : List Int} {R C : Nat}
    (ha : HasShape a o (lead ++ [(R : Int), (C : Int)])) (fuel : Nat) (hfuel : R * C ≤ fuel) (si : Int) (di : Nat) (dst : List α)
    (hd : o + di + R * C ≤ dst.length) : vectorIn L a si di dst = Transpose.vectorIn fuel a si di dst := by
  unfold vectorIn Transpose.vectorIn
  have h1 := ha.shape (pre := lead) (d := R) (suf := [(C : Int)]) rfl
  have h2 := ha.shape (pre := lead ++ [(R : Int)]) (d := C) (suf := []) (by simp)
  rw [ha.dim]
  simp only [List.length_append, List.length_cons, List.length_nil] at h1 h2 ⊢
  rw [show ((lead.length + (0 + 1 + 1) : Nat) : Int) - 2 = lead.length by omega, h1]
  simp only [Outcome.bind_ok]
  rw [show ((lead.length + (0 + 1 + 1) : Nat) : Int) - 1 = ((lead.length + (0 + 1) : Nat) : Int) by omega, h2, ha.offset]
  simp only [Outcome.bind_ok, Int.toNat_natCast]
  rw [show ((o : Int) + (di : Int)) = ((o + di : Nat) : Int) by push_cast; rfl]
  obtain ⟨xs, d, e1, e2, g1, g2, g3⟩ := copy_block (src := dst) (p := o + di) hd (f := L.imatcopy R C C R) (hL.imatcopy R C) (o + di) dst (by rw [Nat.mul_comm C R]; exact hd)
  obtain ⟨d', e', k1, k2, k3⟩ := inPlace_block (m := R) (n := C) (b := o + di) dst hd fuel hfuel
  rw [e1, Outcome.bind_ok, e2, e', same_list g2 k2 g3 (by rw [Nat.mul_comm C R]; exact k3)]

theorem blocks_congr {f g : Int → Int → List α → Outcome (List α)} {stepI stepO : Int} {len N : Nat}
    (h : ∀ i, i < N → ∀ out : List α, out.length = len → f (stepI * i) (stepO * i) out = g (stepI * i) (stepO * i) out ∧
      ∀ y, g (stepI * i) (stepO * i) out = .ok y → y.length = len) :
    ∀ (n i : Nat) (out : List α), i + n = N → out.length = len → blocks f stepI stepO i n out = blocks g stepI stepO i n out
  | 0, _, _, _, _ => rfl
  | n + 1, i, out, hi, ho => by
    obtain ⟨e, hl⟩ := h i (by omega) out ho
    rw [blocks, blocks, e]
    cases hg : g (stepI * i) (stepO * i) out with
    | ok y => exact blocks_congr h n (i + 1) y (by omega) (hl y hg)
    | _ => rfl

end Libube.TransposeMkl

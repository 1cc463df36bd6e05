import Verif.Lemmas.Dft

/-! # The transforms of all rows -/

namespace Libube.Dft

open View Transpose Rows Reduce RowsSpec ReduceSpec ViewSpec DftSpec

theorem exists_ofFn {r : Nat} (row : List α) (h : row.length = r) : ∃ x : Fin r → α, row = List.ofFn x := by
  subst h
  exact ⟨fun i => row[i], (List.ofFn_getElem (xs := row)).symm⟩

theorem divided [Field β] {y y' : List β} {o' w n m : Nat} (hd : ∀ k, o' ≤ k → k < o' + n * w → y'[k]? = y[k]?.map (· / (m : β)))
    {d : List α} {o c r : Nat} {F : (Fin r → α) → Nat → β} (h : RowsTo d o c r y o' w n F) : RowsTo d o c r y' o' w n (fun x k => F x k / m) := by
  intro i x hi hx t ht
  rw [List.length_ofFn] at ht
  have h1 := h i x hi hx t (by rw [List.length_ofFn]; exact ht)
  have hwi : w * i + w ≤ n * w := by
    calc w * i + w = w * (i + 1) := by ring
      _ ≤ w * n := Nat.mul_le_mul_left w hi
      _ = n * w := Nat.mul_comm w n
  rw [hd _ (by omega) (by omega), h1]
  simp [List.getElem?_ofFn, ht]

section
variable {K : Kiss ℝ ℂ} {o o' n c m : Nat} {lead : List Int}

theorem run_fft (hK : Contract K) {a b : Arr ℂ} (hm : 0 < m) (hmc : m ≤ c) (hn : lead.prod = n)
    (ha : HasShape a o (lead ++ [(c : Int)])) (hp : (lead ++ [(c : Int)]).prod + (o : Int) ≤ a.data.length)
    (hb : HasShape b o' (lead ++ [(m : Int)])) (hroom : o' + n * m ≤ b.data.length) :
    ∃ y, run K ⟨some m, .cfloat, m, false⟩ (.cfloat a) (.cfloat b) = .ok (.cfloat ⟨y, b.ip⟩) ∧ y.length = b.data.length ∧
      RowsTo a.data o c m y o' m n (dft m) ∧ ∀ k, k < o' ∨ o' + n * m ≤ k → y[k]? = b.data[k]? := by
  have hs := blockStep_eq hb
  simp only [List.length_singleton, List.prod_singleton] at hs
  obtain ⟨y, e, h1, h2, h3⟩ := rows_run (m := m) (r := m) (cnt := fun n => n) (f := K.fft) ha hp hn (by omega) hb.offset hs hroom rfl hmc
    (fun row hr => by
      obtain ⟨x, rfl⟩ := exists_ofFn row hr
      rw [hK.fft m x hm, List.length_ofFn])
  refine ⟨y, ?_, h1, fun i x hi hx => ?_, h3⟩
  · unfold run
    simp only
    rw [e]
    rfl
  · have := h2 i _ hi (List.length_ofFn) hx
    rwa [hK.fft m x hm] at this

theorem run_fftr_of {F : (Fin m → ℝ) → Nat → ℂ} (hF : ∀ x : Fin m → ℝ, K.fftr m (List.ofFn x) = List.ofFn (fun k : Fin (m / 2 + 1) => F x k))
    {a : Arr ℝ} {b : Arr ℂ} (hm : 0 < m) (hmc : m ≤ c) (hn : lead.prod = n)
    (ha : HasShape a o (lead ++ [(c : Int)])) (hp : (lead ++ [(c : Int)]).prod + (o : Int) ≤ a.data.length)
    (hb : HasShape b o' (lead ++ [((m / 2 + 1 : Nat) : Int)])) (hroom : o' + n * (m / 2 + 1) ≤ b.data.length) :
    ∃ y, run K ⟨some m, .float, m / 2 + 1, false⟩ (.float a) (.cfloat b) = .ok (.cfloat ⟨y, b.ip⟩) ∧ y.length = b.data.length ∧
      RowsTo a.data o c m y o' (m / 2 + 1) n F ∧ ∀ k, k < o' ∨ o' + n * (m / 2 + 1) ≤ k → y[k]? = b.data[k]? := by
  have hs := blockStep_eq hb
  simp only [List.length_singleton, List.prod_singleton] at hs
  obtain ⟨y, e, h1, h2, h3⟩ := rows_run (m := m) (r := m) (cnt := fun n => n) (f := K.fftr) ha hp hn (by omega) hb.offset hs hroom rfl hmc
    (fun row hr => by
      obtain ⟨x, rfl⟩ := exists_ofFn row hr
      rw [hF x, List.length_ofFn])
  refine ⟨y, ?_, h1, fun i x hi hx => ?_, h3⟩
  · unfold run
    simp only
    rw [e]
    rfl
  · have := h2 i _ hi (List.length_ofFn) hx
    rwa [hF x] at this

theorem run_fftr (hK : Contract K) {a : Arr ℝ} {b : Arr ℂ} (hm : 0 < m) (he : m % 2 = 0) (hmc : m ≤ c) (hn : lead.prod = n)
    (ha : HasShape a o (lead ++ [(c : Int)])) (hp : (lead ++ [(c : Int)]).prod + (o : Int) ≤ a.data.length)
    (hb : HasShape b o' (lead ++ [((m / 2 + 1 : Nat) : Int)])) (hroom : o' + n * (m / 2 + 1) ≤ b.data.length) :
    ∃ y, run K ⟨some m, .float, m / 2 + 1, false⟩ (.float a) (.cfloat b) = .ok (.cfloat ⟨y, b.ip⟩) ∧ y.length = b.data.length ∧
      RowsTo a.data o c m y o' (m / 2 + 1) n (fun x => dft m (fun j => (x j : ℂ))) ∧ ∀ k, k < o' ∨ o' + n * (m / 2 + 1) ≤ k → y[k]? = b.data[k]? :=
  run_fftr_of (fun x => hK.fftr m x hm he) hm hmc hn ha hp hb hroom

theorem run_ifft (hK : Contract K) {a b : Arr ℂ} (hm : 0 < m) (hmc : m ≤ c) (hn : lead.prod = n)
    (ha : HasShape a o (lead ++ [(c : Int)])) (hp : (lead ++ [(c : Int)]).prod + (o : Int) ≤ a.data.length)
    (hb : HasShape b o' (lead ++ [(m : Int)])) (hroom : o' + n * m ≤ b.data.length) :
    ∃ y, run K ⟨some m, .cfloat, m, true⟩ (.cfloat a) (.cfloat b) = .ok (.cfloat ⟨y, b.ip⟩) ∧ y.length = b.data.length ∧
      RowsTo a.data o c m y o' m n (fun z j => idft m z j / m) ∧ ∀ k, k < o' ∨ o' + n * m ≤ k → y[k]? = b.data[k]? := by
  have hs := blockStep_eq hb
  simp only [List.length_singleton, List.prod_singleton] at hs
  obtain ⟨y, e, h1, h2, h3⟩ := rows_run (m := m) (r := m) (cnt := fun n => n) (f := K.ifft) ha hp hn (by omega) hb.offset hs hroom rfl hmc
    (fun row hr => by
      obtain ⟨x, rfl⟩ := exists_ofFn row hr
      rw [hK.ifft m x hm, List.length_ofFn])
  have h2' : RowsTo a.data o c m y o' m n (idft m) := fun i x hi hx => by
    have := h2 i _ hi (List.length_ofFn) hx
    rwa [hK.ifft m x hm] at this
  obtain ⟨y', e', g1, g2, g3⟩ := divide_eq (m := m) (with_data hb h1) hn (by rw [h1]; exact hroom)
  refine ⟨y', ?_, g1.trans h1, divided g2 h2', fun k hk => (g3 k hk).trans (h3 k hk)⟩
  unfold run
  simp only
  rw [e, Outcome.bind_ok]
  have e'' : divide m (⟨y, b.ip⟩ : Arr ℂ) = .ok y' := e'
  rw [e'']
  rfl

theorem run_fftri_of {F : (Fin (m / 2 + 1) → ℂ) → Nat → ℝ} (hF : ∀ z : Fin (m / 2 + 1) → ℂ, K.fftri m (List.ofFn z) = List.ofFn (fun j : Fin m => F z j))
    {a : Arr ℂ} {b : Arr ℝ} (hm : 0 < m) (hmc : m / 2 + 1 ≤ c) (hn : lead.prod = n)
    (ha : HasShape a o (lead ++ [(c : Int)])) (hp : (lead ++ [(c : Int)]).prod + (o : Int) ≤ a.data.length)
    (hb : HasShape b o' (lead ++ [(m : Int)])) (hroom : o' + n * m ≤ b.data.length) :
    ∃ y, run K ⟨some m, .float, m, true⟩ (.cfloat a) (.float b) = .ok (.float ⟨y, b.ip⟩) ∧ y.length = b.data.length ∧
      RowsTo a.data o c (m / 2 + 1) y o' m n (fun z j => F z j / m) ∧ ∀ k, k < o' ∨ o' + n * m ≤ k → y[k]? = b.data[k]? := by
  have hs := blockStep_eq hb
  simp only [List.length_singleton, List.prod_singleton] at hs
  obtain ⟨y, e, h1, h2, h3⟩ := rows_run (m := m) (r := m / 2 + 1) (cnt := fun n => n / 2 + 1) (f := K.fftri) ha hp hn (by omega) hb.offset hs hroom rfl hmc
    (fun row hr => by
      obtain ⟨x, rfl⟩ := exists_ofFn row hr
      rw [hF x, List.length_ofFn])
  have h2' : RowsTo a.data o c (m / 2 + 1) y o' m n F := fun i x hi hx => by
    have := h2 i _ hi (List.length_ofFn) hx
    rwa [hF x] at this
  obtain ⟨y', e', g1, g2, g3⟩ := divide_eq (m := m) (with_data hb h1) hn (by rw [h1]; exact hroom)
  refine ⟨y', ?_, g1.trans h1, divided g2 h2', fun k hk => (g3 k hk).trans (h3 k hk)⟩
  unfold run
  simp only
  rw [e, Outcome.bind_ok]
  have e'' : divide m (⟨y, b.ip⟩ : Arr ℝ) = .ok y' := e'
  rw [e'']
  rfl

theorem run_fftri (hK : Contract K) {a : Arr ℂ} {b : Arr ℝ} (hm : 0 < m) (he : m % 2 = 0) (hmc : m / 2 + 1 ≤ c) (hn : lead.prod = n)
    (ha : HasShape a o (lead ++ [(c : Int)])) (hp : (lead ++ [(c : Int)]).prod + (o : Int) ≤ a.data.length)
    (hb : HasShape b o' (lead ++ [(m : Int)])) (hroom : o' + n * m ≤ b.data.length) :
    ∃ y, run K ⟨some m, .float, m, true⟩ (.cfloat a) (.float b) = .ok (.float ⟨y, b.ip⟩) ∧ y.length = b.data.length ∧
      RowsTo a.data o c (m / 2 + 1) y o' m n (fun z j => idftr m z j / m) ∧ ∀ k, k < o' ∨ o' + n * m ≤ k → y[k]? = b.data[k]? :=
  run_fftri_of (fun z => hK.fftri m z hm he) hm hmc hn ha hp hb hroom

end

/-! ### Rows that are too short -/

theorem readRow_cases {src : List α} {p : Nat} : ∀ (n i : Nat), (∃ row, readRow src (p : Int) i n = .ok row ∧ row.length = n) ∨ readRow src (p : Int) i n = .ub .outOfBounds
  | 0, _ => .inl ⟨[], rfl, rfl⟩
  | n + 1, i => by
    rw [readRow]
    by_cases hi : p + i < src.length
    · rw [load_nat (b := p) (k := i) (List.getElem?_eq_getElem hi), Outcome.bind_ok]
      rcases readRow_cases n (i + 1) with ⟨row, e, h⟩ | e
      · exact .inl ⟨_ :: row, by rw [e]; rfl, by simp [h]⟩
      · exact .inr (by rw [e]; rfl)
    · right
      have : load src ((p : Int) + (i : Int)) = .ub .outOfBounds := by
        unfold load
        rw [if_neg (by omega), show ((p : Int) + (i : Int)).toNat = p + i by omega, List.getElem?_eq_none (by omega)]
      rw [this]
      rfl

theorem blocks_ub {f : Int → Int → List β → Outcome (List β)} {sI sO : Int} {L N : Nat}
    (h : ∀ i, i < N → ∀ dst : List β, dst.length = L → (∃ d, f (sI * i) (sO * i) dst = .ok d ∧ d.length = L) ∨ f (sI * i) (sO * i) dst = .ub .outOfBounds)
    (hlast : ∀ dst : List β, dst.length = L → f (sI * (N : Int)) (sO * (N : Int)) dst = .ub .outOfBounds) :
    ∀ (k i : Nat) (dst : List β), i + k = N → dst.length = L → blocks f sI sO i (k + 1) dst = .ub .outOfBounds
  | 0, i, dst, hi, hd => by
    rw [blocks, show (i : Int) = (N : Int) by omega, hlast dst hd]
    rfl
  | k + 1, i, dst, hi, hd => by
    rw [blocks]
    rcases h i (by omega) dst hd with ⟨d, e, hl⟩ | e
    · rw [e, Outcome.bind_ok]
      exact blocks_ub h hlast k (i + 1) d (by omega) hl
    · rw [e]
      rfl

/-- Rows of which more is to be read than they have, at the end of the storage. -/
theorem rows_short {a : Arr α} {b : Arr β} {o o' : Nat} {n c w m r : Nat} {lead : List Int} {cnt : Nat → Nat} {f : Nat → List α → List β}
    (ha : HasShape a o (lead ++ [(c : Int)])) (hn : lead.prod = ((n + 1 : Nat) : Int)) (hc : 0 < c) (hend : o + (n + 1) * c = a.data.length)
    (hb : offset b = .ok (o' : Int)) (hstep : blockStep b 1 = .ok (w : Int)) (hroom : o' + (n + 1) * w ≤ b.data.length)
    (hr : cnt m = r) (hrc : c < r) (hf : ∀ row : List α, row.length = r → (f m row).length = w) :
    broadcastTo (vector (some m) cnt f a b) a b = .ub .outOfBounds := by
  have hbi := blockStep_eq ha
  simp only [List.length_singleton, List.prod_singleton] at hbi
  unfold broadcastTo
  rw [if_neg (by rw [ha.dim]; simp), hbi, ha.size, hstep]
  simp only [Outcome.bind_ok]
  rw [if_neg (by omega), List.prod_append, hn, List.prod_singleton, tdiv_blocks (n + 1) c hc]
  have hv : ∀ (i : Nat) (dst : List β), vector (some m) cnt f a b ((c : Int) * (i : Int)) ((w : Int) * (i : Int)) dst =
      (readRow a.data ((o + c * i : Nat) : Int) 0 r).bind (fun row => writeRow ((o' + w * i : Nat) : Int) 0 (f m row) dst) := by
    intro i dst
    unfold vector
    rw [ha.offset, hb]
    simp only [Outcome.bind_ok]
    rw [hr, show (o : Int) + (c : Int) * (i : Int) = ((o + c * i : Nat) : Int) by push_cast; rfl,
      show (o' : Int) + (w : Int) * (i : Int) = ((o' + w * i : Nat) : Int) by push_cast; rfl]
    rfl
  refine blocks_ub (L := b.data.length) (N := n) (fun i hi dst hd => ?_) (fun dst hd => ?_) n 0 b.data (by omega) rfl
  · rw [hv]
    rcases readRow_cases (src := a.data) (p := o + c * i) r 0 with ⟨row, e, hl⟩ | e
    · left
      have hwi : w * i + w ≤ (n + 1) * w := by
        calc w * i + w = w * (i + 1) := by ring
          _ ≤ w * (n + 1) := Nat.mul_le_mul_left w (by omega)
          _ = (n + 1) * w := Nat.mul_comm _ _
      obtain ⟨d, e', h1, -⟩ := writeRow_eq (q := o' + w * i) (f m row) 0 dst (by rw [hf row hl]; omega)
      exact ⟨d, by rw [e]; exact e', h1.trans hd⟩
    · right
      rw [e]
      rfl
  · rw [hv]
    have : (n + 1) * c = c * n + c := by ring
    rw [readRow_short r 0 (by omega) (by omega)]
    rfl

end Libube.Dft

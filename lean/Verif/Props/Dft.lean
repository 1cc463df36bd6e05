import Verif.Lemmas.DftRun

/-! # Properties of the discrete Fourier transform (C113–C115)

Arithmetic is exact here, in the real and the complex numbers; what the library computes is assumed (`DftSpec.Contract`). -/

namespace Libube.Dft

open View Transpose Rows Reduce RowsSpec ReduceSpec ViewSpec DftSpec

variable {K : Kiss ℝ ℂ} {o n c m : Nat} {lead : List Int}

/-! ### The new array -/

theorem alloc_eq {α : Type} {a : Arr α} {w : Nat} (hs : HasShape a (o : Int) (lead ++ [(c : Int)])) (hlead : ∀ d ∈ lead, 0 < d) (hn : lead.prod = n)
    {d : Impl} (hw : d.oSize = w) (hw0 : 0 < w) (hb : n * w < 2147483648) {junkR : List ℝ} {junkC : List ℂ}
    (hj : match outType d with | .float => junkR.length = n * w | .cfloat => junkC.length = n * w) {x : Data ℝ ℂ} (hx : shapeOf x = shapeLoop a 0 (dim a)) :
    alloc d junkR junkC x = .ok (match outType d with
      | .float => .float ⟨junkR, some (0 :: flat (lead ++ [(w : Int)]))⟩
      | .cfloat => .cfloat ⟨junkC, some (0 :: flat (lead ++ [(w : Int)]))⟩) := by
  unfold alloc
  rw [hx, hw]
  revert hj
  cases outType d with
  | float =>
    intro hjR
    have h := (newLast hs hlead hn hw0 junkR hjR hb).1
    have h1 : shapeLoop a 0 (lead ++ [(c : Int)]).length = .ok (lead ++ [(c : Int)]) := hs.shapeLoop [] _ rfl
    rw [hs.dim, h1, Outcome.bind_ok] at h ⊢
    cases hi : ipSet (lead ++ [(c : Int)]) ((lead ++ [(c : Int)]).length - 1) (w : Int) with
    | ok s => rw [hi, Outcome.bind_ok] at h; simp only [Outcome.bind_ok]; rw [h]; rfl
    | _ => rw [hi] at h; cases h
  | cfloat =>
    intro hjC
    have h := (newLast hs hlead hn hw0 junkC hjC hb).1
    have h1 : shapeLoop a 0 (lead ++ [(c : Int)]).length = .ok (lead ++ [(c : Int)]) := hs.shapeLoop [] _ rfl
    rw [hs.dim, h1, Outcome.bind_ok] at h ⊢
    cases hi : ipSet (lead ++ [(c : Int)]) ((lead ++ [(c : Int)]).length - 1) (w : Int) with
    | ok s => rw [hi, Outcome.bind_ok] at h; simp only [Outcome.bind_ok]; rw [h]; rfl
    | _ => rw [hi] at h; cases h

/-! ## C113: what is computed -/

/-- C113 for complex numbers, `DFT(m, cfloat)(x, y)` with rows of `m` elements or more: each row of `y` becomes the transform of the
    first `m` elements of the row of `x`; nothing else in the storage of `y` changes. -/
theorem dft_complex_into_partial (hK : Contract K) (hm : 0 < m) (hmc : m ≤ c) (a b : Arr ℂ) (o' : Nat) (hn : lead.prod = n)
    (ha : Shaped a o (lead ++ [(c : Int)])) (hb : Shaped b o' (lead ++ [(m : Int)])) :
    ∃ d y, make m false .cfloat = .ok d ∧ callInto K d (.cfloat a) (.cfloat b) = .ok (.cfloat ⟨y, b.ip⟩) ∧
      RowsTo a.data o c m y o' m n (dft m) ∧ OnlyIn b.data y o' (n * m) := by
  obtain ⟨sa, pa, la⟩ := ha.shape
  obtain ⟨sb, pb, lb⟩ := hb.shape
  obtain ⟨y, e, h1, h2, h3⟩ := run_fft hK hm hmc hn sa pa sb (room hn pb).1
  exact ⟨_, y, rfl, e, h2, h1, h3⟩

/-- The same for the inverse. -/
theorem idft_complex_into_partial (hK : Contract K) (hm : 0 < m) (hmc : m ≤ c) (a b : Arr ℂ) (o' : Nat) (hn : lead.prod = n)
    (ha : Shaped a o (lead ++ [(c : Int)])) (hb : Shaped b o' (lead ++ [(m : Int)])) :
    ∃ d y, make m true .cfloat = .ok d ∧ callInto K d (.cfloat a) (.cfloat b) = .ok (.cfloat ⟨y, b.ip⟩) ∧
      RowsTo a.data o c m y o' m n (fun z j => idft m z j / m) ∧ OnlyIn b.data y o' (n * m) := by
  obtain ⟨sa, pa, la⟩ := ha.shape
  obtain ⟨sb, pb, lb⟩ := hb.shape
  obtain ⟨y, e, h1, h2, h3⟩ := run_ifft hK hm hmc hn sa pa sb (room hn pb).1
  exact ⟨_, y, rfl, e, h2, h1, h3⟩

/-- C113 for real numbers, `DFT(m)(x, y)` with `m` even: each row of `y` becomes the first half of the transform. -/
theorem dft_real_into_partial (hK : Contract K) (hm : 0 < m) (he : m % 2 = 0) (hmc : m ≤ c) (a : Arr ℝ) (b : Arr ℂ) (o' : Nat) (hn : lead.prod = n)
    (ha : Shaped a o (lead ++ [(c : Int)])) (hb : Shaped b o' (lead ++ [((m / 2 + 1 : Nat) : Int)])) :
    ∃ d y, make m false .float = .ok d ∧ callInto K d (.float a) (.cfloat b) = .ok (.cfloat ⟨y, b.ip⟩) ∧
      RowsTo a.data o c m y o' (m / 2 + 1) n (fun x => dft m (fun j => (x j : ℂ))) ∧ OnlyIn b.data y o' (n * (m / 2 + 1)) := by
  obtain ⟨sa, pa, la⟩ := ha.shape
  obtain ⟨sb, pb, lb⟩ := hb.shape
  obtain ⟨y, e, h1, h2, h3⟩ := run_fftr hK hm he hmc hn sa pa sb (room hn pb).1
  refine ⟨_, y, rfl, ?_, h2, h1, h3⟩
  rw [if_pos he]
  exact e

/-- The inverse to real numbers, from the first half of a spectrum. -/
theorem idft_real_into_partial (hK : Contract K) (hm : 0 < m) (he : m % 2 = 0) (hmc : m / 2 + 1 ≤ c) (a : Arr ℂ) (b : Arr ℝ) (o' : Nat) (hn : lead.prod = n)
    (ha : Shaped a o (lead ++ [(c : Int)])) (hb : Shaped b o' (lead ++ [(m : Int)])) :
    ∃ d y, make m true .float = .ok d ∧ callInto K d (.cfloat a) (.float b) = .ok (.float ⟨y, b.ip⟩) ∧
      RowsTo a.data o c (m / 2 + 1) y o' m n (fun z j => idftr m z j / m) ∧ OnlyIn b.data y o' (n * m) := by
  obtain ⟨sa, pa, la⟩ := ha.shape
  obtain ⟨sb, pb, lb⟩ := hb.shape
  obtain ⟨y, e, h1, h2, h3⟩ := run_fftri hK hm he hmc hn sa pa sb (room hn pb).1
  refine ⟨_, y, rfl, ?_, h2, h1, h3⟩
  rw [if_pos he]
  exact e

/-- C113 for complex numbers and a new array: `DFT(m, cfloat)(x)` has the shape of `x` with last dimension `m`.  Missing for the full claim:
    rows shorter than `m` (`dft_short_rows_undefined`). -/
theorem dft_complex_partial (hK : Contract K) (hm : 0 < m) (hmc : m ≤ c) (a : Arr ℂ) (hn : lead.prod = n) (hlead : ∀ d ∈ lead, 0 < d)
    (ha : Shaped a o (lead ++ [(c : Int)])) (junkR : List ℝ) (junkC : List ℂ) (hj : junkC.length = n * m) :
    ∃ d out y, make m false .cfloat = .ok d ∧ call K d junkR junkC (.cfloat a) = .ok (.cfloat out) ∧
      NewArray out (lead ++ [(m : Int)]) y ∧ RowsTo a.data o c m y 0 m n (dft m) := by
  obtain ⟨sa, pa, la⟩ := ha.shape
  have hb : n * m < 2147483648 := by
    have := (room hn pa).1
    have : n * m ≤ n * c := Nat.mul_le_mul_left n hmc
    omega
  obtain ⟨-, hnew⟩ := newLast sa hlead hn hm junkC hj hb
  obtain ⟨hs, -, -, -, -⟩ := hnew junkC hj
  obtain ⟨y, e, h1, h2, h3⟩ := run_fft hK hm hmc hn sa pa hs (by simp [hj])
  refine ⟨_, _, y, rfl, ?_, (hnew y (h1.trans hj)).2.2.1, h2⟩
  unfold call
  rw [alloc_eq sa hlead hn (w := m) rfl hm hb hj (x := .cfloat a) rfl, Outcome.bind_ok]
  exact e

theorem idft_complex_partial (hK : Contract K) (hm : 0 < m) (hmc : m ≤ c) (a : Arr ℂ) (hn : lead.prod = n) (hlead : ∀ d ∈ lead, 0 < d)
    (ha : Shaped a o (lead ++ [(c : Int)])) (junkR : List ℝ) (junkC : List ℂ) (hj : junkC.length = n * m) :
    ∃ d out y, make m true .cfloat = .ok d ∧ call K d junkR junkC (.cfloat a) = .ok (.cfloat out) ∧
      NewArray out (lead ++ [(m : Int)]) y ∧ RowsTo a.data o c m y 0 m n (fun z j => idft m z j / m) := by
  obtain ⟨sa, pa, la⟩ := ha.shape
  have hb : n * m < 2147483648 := by
    have := (room hn pa).1
    have : n * m ≤ n * c := Nat.mul_le_mul_left n hmc
    omega
  obtain ⟨-, hnew⟩ := newLast sa hlead hn hm junkC hj hb
  obtain ⟨hs, -, -, -, -⟩ := hnew junkC hj
  obtain ⟨y, e, h1, h2, h3⟩ := run_ifft hK hm hmc hn sa pa hs (by simp [hj])
  refine ⟨_, _, y, rfl, ?_, (hnew y (h1.trans hj)).2.2.1, h2⟩
  unfold call
  rw [alloc_eq sa hlead hn (w := m) rfl hm hb hj (x := .cfloat a) rfl, Outcome.bind_ok]
  exact e

/-- C113 for real numbers and a new array: the last dimension is `m/2 + 1`, the numbers are complex.  Missing: rows shorter than `m`, and odd `m`
    (`dft_odd_undefined`). -/
theorem dft_real_partial (hK : Contract K) (hm : 0 < m) (he : m % 2 = 0) (hmc : m ≤ c) (a : Arr ℝ) (hn : lead.prod = n) (hlead : ∀ d ∈ lead, 0 < d)
    (ha : Shaped a o (lead ++ [(c : Int)])) (junkR : List ℝ) (junkC : List ℂ) (hj : junkC.length = n * (m / 2 + 1)) :
    ∃ d out y, make m false .float = .ok d ∧ call K d junkR junkC (.float a) = .ok (.cfloat out) ∧
      NewArray out (lead ++ [((m / 2 + 1 : Nat) : Int)]) y ∧ RowsTo a.data o c m y 0 (m / 2 + 1) n (fun x => dft m (fun j => (x j : ℂ))) := by
  obtain ⟨sa, pa, la⟩ := ha.shape
  have hb : n * (m / 2 + 1) < 2147483648 := by
    have := (room hn pa).1
    have : n * (m / 2 + 1) ≤ n * c := Nat.mul_le_mul_left n (by omega)
    omega
  obtain ⟨-, hnew⟩ := newLast sa hlead hn (Nat.succ_pos _) junkC hj hb
  obtain ⟨hs, -, -, -, -⟩ := hnew junkC hj
  obtain ⟨y, e, h1, h2, h3⟩ := run_fftr hK hm he hmc hn sa pa hs (by simp [hj])
  refine ⟨_, _, y, rfl, ?_, (hnew y (h1.trans hj)).2.2.1, h2⟩
  rw [if_pos he]
  unfold call
  rw [alloc_eq sa hlead hn (w := m / 2 + 1) rfl (Nat.succ_pos _) hb hj (x := .float a) rfl, Outcome.bind_ok]
  exact e

theorem idft_real_partial (hK : Contract K) (hm : 0 < m) (he : m % 2 = 0) (hmc : m / 2 + 1 ≤ c) (a : Arr ℂ) (hn : lead.prod = n) (hlead : ∀ d ∈ lead, 0 < d)
    (hb : n * m < 2 ^ 31)
    (ha : Shaped a o (lead ++ [(c : Int)])) (junkR : List ℝ) (junkC : List ℂ) (hj : junkR.length = n * m) :
    ∃ d out y, make m true .float = .ok d ∧ call K d junkR junkC (.cfloat a) = .ok (.float out) ∧
      NewArray out (lead ++ [(m : Int)]) y ∧ RowsTo a.data o c (m / 2 + 1) y 0 m n (fun z j => idftr m z j / m) := by
  obtain ⟨sa, pa, la⟩ := ha.shape
  obtain ⟨-, hnew⟩ := newLast sa hlead hn hm junkR hj hb
  obtain ⟨hs, -, -, -, -⟩ := hnew junkR hj
  obtain ⟨y, e, h1, h2, h3⟩ := run_fftri hK hm he hmc hn sa pa hs (by simp [hj])
  refine ⟨_, _, y, rfl, ?_, (hnew y (h1.trans hj)).2.2.1, h2⟩
  rw [if_pos he]
  unfold call
  rw [alloc_eq sa hlead hn (w := m) rfl hm hb hj (x := .cfloat a) rfl, Outcome.bind_ok]
  exact e

/-! ### A library that keeps the contract, and arrays -/

/-- The functions the contract describes. -/
noncomputable def exact : Kiss ℝ ℂ where
  fft n xs := if h : xs.length = n then List.ofFn (fun k : Fin n => dft n (fun j : Fin n => xs[j.val]'(by rw [h]; exact j.isLt)) k) else []
  ifft n xs := if h : xs.length = n then List.ofFn (fun k : Fin n => idft n (fun j : Fin n => xs[j.val]'(by rw [h]; exact j.isLt)) k) else []
  fftr n xs := if h : xs.length = n then List.ofFn (fun k : Fin (n / 2 + 1) => dft n (fun j : Fin n => ((xs[j.val]'(by rw [h]; exact j.isLt) : ℝ) : ℂ)) k) else []
  fftri n xs := if h : xs.length = n / 2 + 1 then List.ofFn (fun k : Fin n => idftr n (fun j : Fin (n / 2 + 1) => xs[j.val]'(by rw [h]; exact j.isLt)) k) else []

theorem exact_contract : Contract exact where
  fft n x _ := by simp [exact]
  ifft n x _ := by simp [exact]
  fftr n x _ _ := by simp [exact]
  fftri n x _ _ := by
    unfold exact
    simp only
    rw [dif_pos List.length_ofFn]
    simp only [List.getElem_ofFn]

/-- A view of two rows of two numbers, in storage with one number before it. -/
def twoRows : Arr ℝ := ⟨[9, 1, 2, 3, 4], some [1, 2, 2, 2, 1]⟩

theorem twoRows_shaped : Shaped twoRows 1 ([2] ++ [((2 : Nat) : Int)]) := .view 1 [2, 2] rfl (by decide)

example : Contract exact ∧ Shaped twoRows 1 ([2] ++ [((2 : Nat) : Int)]) ∧ (∀ d ∈ [(2 : Int)], 0 < d) ∧ ([2] : List Int).prod = ((2 : Nat) : Int) ∧
    RowAt twoRows.data (1 + 2 * 1) (List.ofFn ![(3 : ℝ), 4]) :=
  ⟨exact_contract, twoRows_shaped, by decide, by decide, fun t ht => by
    match t, ht with
    | 0, _ => rfl
    | 1, _ => rfl⟩

/-- Two complex rows and an output for them. -/
example : Shaped (⟨[1, 2, 3, 4], some [0, 2, 2, 2, 1]⟩ : Arr ℂ) 0 ([2] ++ [((2 : Nat) : Int)]) ∧
    Shaped (⟨[0, 0, 0, 0, 0], some [1, 2, 2, 2, 1]⟩ : Arr ℂ) 1 ([2] ++ [((2 / 2 + 1 : Nat) : Int)]) :=
  ⟨.view 0 [2, 2] rfl (by norm_num), .view 1 [2, 2] rfl (by norm_num)⟩

/-! ## C114: the inverse undoes the transform -/

theorem rows_same {d y : List α} {o w n : Nat} (hd : o + n * w ≤ d.length) (hy : y.length = n * w) (hw : 0 < w)
    (h : ∀ i (x : Fin w → α), i < n → RowAt d (o + w * i) (List.ofFn x) → RowAt y (w * i) (List.ofFn x)) : y = (d.drop o).take (n * w) := by
  apply List.ext_getElem?
  intro k
  by_cases hk : k < n * w
  · have hi : k / w < n := Nat.div_lt_of_lt_mul (by rwa [Nat.mul_comm] at hk)
    have ht : k % w < w := Nat.mod_lt _ hw
    have hkk : w * (k / w) + k % w = k := Nat.div_add_mod k w
    have hwi : w * (k / w) + w ≤ n * w := by
      calc w * (k / w) + w = w * (k / w + 1) := by ring
        _ ≤ w * n := Nat.mul_le_mul_left w hi
        _ = n * w := Nat.mul_comm w n
    obtain ⟨k1, k2⟩ := rowAt_take (d := d) (p := o + w * (k / w)) (c := w) (by omega)
    obtain ⟨x, hx⟩ := exists_ofFn _ k2
    rw [hx] at k1
    have h1 := h _ x hi k1 (k % w) (by rw [List.length_ofFn]; exact ht)
    have h2 := k1 (k % w) (by rw [List.length_ofFn]; exact ht)
    rw [hkk] at h1
    rw [h1, ← h2, List.getElem?_take_of_lt hk, List.getElem?_drop]
    congr 1
    omega
  · rw [List.getElem?_eq_none (by omega), List.getElem?_eq_none (by rw [List.length_take]; omega)]

theorem newArray_shaped {out : Arr α} {sh : List Int} {y : List α} (h : NewArray out sh y) (hl : (y.length : Int) < 2 ^ 31) : out.data = y ∧ Shaped out 0 sh := by
  obtain ⟨_, -, hd, -⟩ := view_shape h.1
  refine ⟨hd, .view 0 sh ?_ (by rw [hd]; exact hl)⟩
  rw [hd]
  exact h.1

/-- C114 for complex numbers: `IDFT(m, cfloat)(DFT(m, cfloat)(x))` is a new array of the shape of `x` with its elements, for rows of `m`
    elements. -/
theorem idft_dft_complex_partial (hK : Contract K) (hm : 0 < m) (a : Arr ℂ) (hn : lead.prod = n) (hlead : ∀ d ∈ lead, 0 < d)
    (ha : Shaped a o (lead ++ [(m : Int)])) (junkR : List ℝ) (junkC junkC' : List ℂ) (hj : junkC.length = n * m) (hj' : junkC'.length = n * m) :
    ∃ f g z x, make m false .cfloat = .ok f ∧ make m true .cfloat = .ok g ∧ call K f junkR junkC (.cfloat a) = .ok z ∧
      call K g junkR junkC' z = .ok (.cfloat x) ∧ NewArray x (lead ++ [(m : Int)]) ((a.data.drop o).take (n * m)) := by
  obtain ⟨f, z, y, hf, h1, h2, h3⟩ := dft_complex_partial hK hm (le_refl m) a hn hlead ha junkR junkC hj
  obtain ⟨-, pa, la⟩ := ha.shape
  have hr := (room hn pa).1
  have hprod : (lead ++ [(m : Int)]).prod = ((n * m : Nat) : Int) := by
    rw [List.prod_append, hn, List.prod_singleton]; push_cast; ring
  have hy : y.length = n * m := by have := h2.2; rw [hprod] at this; omega
  obtain ⟨hz, sz⟩ := newArray_shaped h2 (by omega)
  obtain ⟨g, x, w, hg, g1, g2, g3⟩ := idft_complex_partial hK hm (le_refl m) z hn hlead sz junkR junkC' hj'
  refine ⟨f, g, _, x, hf, hg, h1, g1, ?_⟩
  have hw : w.length = n * m := by have := g2.2; rw [hprod] at this; omega
  have : w = (a.data.drop o).take (n * m) := by
    refine rows_same hr hw hm (fun i u hi hu => ?_)
    have e1 := h3 i u hi hu
    rw [← hz] at e1
    have e2 := g3 i _ hi e1
    rw [Nat.zero_add] at e2
    have e3 : (fun k : Fin m => idft m (fun k : Fin m => dft m u k) k / m) = u := by
      funext k
      rw [idft_dft hm]
      have : (m : ℂ) ≠ 0 := by exact_mod_cast hm.ne'
      field_simp
    rwa [e3] at e2
  rwa [this] at g2

/-- And the other way round. -/
theorem dft_idft_complex_partial (hK : Contract K) (hm : 0 < m) (a : Arr ℂ) (hn : lead.prod = n) (hlead : ∀ d ∈ lead, 0 < d)
    (ha : Shaped a o (lead ++ [(m : Int)])) (junkR : List ℝ) (junkC junkC' : List ℂ) (hj : junkC.length = n * m) (hj' : junkC'.length = n * m) :
    ∃ f g z x, make m false .cfloat = .ok f ∧ make m true .cfloat = .ok g ∧ call K g junkR junkC (.cfloat a) = .ok z ∧
      call K f junkR junkC' z = .ok (.cfloat x) ∧ NewArray x (lead ++ [(m : Int)]) ((a.data.drop o).take (n * m)) := by
  obtain ⟨g, z, y, hg, h1, h2, h3⟩ := idft_complex_partial hK hm (le_refl m) a hn hlead ha junkR junkC hj
  obtain ⟨-, pa, la⟩ := ha.shape
  have hr := (room hn pa).1
  have hprod : (lead ++ [(m : Int)]).prod = ((n * m : Nat) : Int) := by
    rw [List.prod_append, hn, List.prod_singleton]; push_cast; ring
  have hy : y.length = n * m := by have := h2.2; rw [hprod] at this; omega
  obtain ⟨hz, sz⟩ := newArray_shaped h2 (by omega)
  obtain ⟨f, x, w, hf, g1, g2, g3⟩ := dft_complex_partial hK hm (le_refl m) z hn hlead sz junkR junkC' hj'
  refine ⟨f, g, _, x, hf, hg, h1, g1, ?_⟩
  have hw : w.length = n * m := by have := g2.2; rw [hprod] at this; omega
  have : w = (a.data.drop o).take (n * m) := by
    refine rows_same hr hw hm (fun i u hi hu => ?_)
    have e1 := h3 i u hi hu
    rw [← hz] at e1
    have e2 := g3 i _ hi e1
    rw [Nat.zero_add] at e2
    have e3 : (fun k : Fin m => dft m (fun k : Fin m => idft m u k / m) k) = u := by
      funext k
      exact dft_idft hm u k
    rwa [e3] at e2
  rwa [this] at g2

/-- C114 for real numbers and even `m`: `IDFT(m)(DFT(m)(x))` is a new array of the shape of `x` with its elements. -/
theorem idft_dft_real_partial (hK : Contract K) (hm : 0 < m) (he : m % 2 = 0) (a : Arr ℝ) (hn : lead.prod = n) (hlead : ∀ d ∈ lead, 0 < d)
    (ha : Shaped a o (lead ++ [(m : Int)])) (junkR junkR' : List ℝ) (junkC junkC' : List ℂ) (hj : junkC.length = n * (m / 2 + 1)) (hj' : junkR'.length = n * m) :
    ∃ f g z x, make m false .float = .ok f ∧ make m true .float = .ok g ∧ call K f junkR junkC (.float a) = .ok z ∧
      call K g junkR' junkC' z = .ok (.float x) ∧ NewArray x (lead ++ [(m : Int)]) ((a.data.drop o).take (n * m)) := by
  obtain ⟨f, z, y, hf, h1, h2, h3⟩ := dft_real_partial hK hm he (le_refl m) a hn hlead ha junkR junkC hj
  obtain ⟨-, pa, la⟩ := ha.shape
  have hr := (room hn pa).1
  have hprod : ∀ w : Nat, (lead ++ [(w : Int)]).prod = ((n * w : Nat) : Int) := fun w => by
    rw [List.prod_append, hn, List.prod_singleton]; push_cast; ring
  have hle : n * (m / 2 + 1) ≤ n * m := Nat.mul_le_mul_left n (by omega)
  have hy : y.length = n * (m / 2 + 1) := by have := h2.2; rw [hprod] at this; omega
  obtain ⟨hz, sz⟩ := newArray_shaped h2 (by omega)
  obtain ⟨g, x, w, hg, g1, g2, g3⟩ := idft_real_partial hK hm he (le_refl _) z hn hlead (by omega) sz junkR' junkC' hj'
  refine ⟨f, g, _, x, hf, hg, h1, g1, ?_⟩
  have hw : w.length = n * m := by have := g2.2; rw [hprod] at this; omega
  have : w = (a.data.drop o).take (n * m) := by
    refine rows_same hr hw hm (fun i u hi hu => ?_)
    have e1 := h3 i u hi hu
    rw [← hz] at e1
    have e2 := g3 i _ hi e1
    rw [Nat.zero_add] at e2
    have e3 : (fun k : Fin m => idftr m (fun k : Fin (m / 2 + 1) => dft m (fun j => (u j : ℂ)) k) k / m) = u := by
      funext k
      rw [idftr_dft hm he]
      have : (m : ℝ) ≠ 0 := by exact_mod_cast hm.ne'
      field_simp
    rwa [e3] at e2
  rwa [this] at g2

/-! ## C115: what cannot be transformed -/

/-- Double precision and integers are refused by the constructor. -/
theorem dft_type_refused (size : Nat) (inverse : Bool) (t : Kind) (h1 : t ≠ .float) (h2 : t ≠ .cfloat) : ∃ e, make size inverse t = .thrown (.error e) := by
  cases t <;> first | exact absurd rfl h1 | exact absurd rfl h2 | exact ⟨_, rfl⟩

/-- An array that does not have the type of the input, or an output that does not have that of the output, is refused. -/
theorem dft_wrong_type_throws [Field ρ] [Field κ] (K : Kiss ρ κ) (d : Impl) (x y : Data ρ κ) (t u : Option Fwd) (hx : atype x = .ok t) (hy : atype y = .ok u)
    (h : t ≠ some (inType d) ∨ u ≠ some (outType d)) : ∃ e, callInto K d x y = .thrown (.error e) := by
  unfold callInto scalar
  split
  · exact ⟨_, rfl⟩
  · exact ⟨_, rfl⟩
  · rw [hx, Outcome.bind_ok]
    by_cases ht : t ≠ some (inType d)
    · rw [if_pos ht]
      exact ⟨_, rfl⟩
    · rw [if_neg ht, hy, Outcome.bind_ok]
      rw [if_pos (h.resolve_left ht)]
      exact ⟨_, rfl⟩

/-- A number is refused. -/
theorem dft_number_throws [Field ρ] [Field κ] (K : Kiss ρ κ) (d : Impl) (y : Data ρ κ) :
    callInto K d .number y = .thrown (.error "DFTBase::scalar: DFTBase input must be vector") := rfl

/-- In place is refused: real numbers because of the type, complex ones as not implemented; at least one row is needed for that. -/
theorem dft_self_throws (d : Impl) (a : Arr κ) (hn : lead.prod = ((n + 1 : Nat) : Int)) (hc : 0 < c) (ha : Shaped a o (lead ++ [(c : Int)])) :
    ∃ e, callSelf d (.cfloat a : Data ρ κ) = .thrown (.error e) := by
  obtain ⟨sa, pa, la⟩ := ha.shape
  unfold callSelf
  simp only [atype, Outcome.bind_ok]
  split
  · exact ⟨_, rfl⟩
  · split
    · exact ⟨_, rfl⟩
    · have hbi := blockStep_eq sa
      simp only [List.length_singleton, List.prod_singleton] at hbi
      unfold broadcastTo
      rw [if_neg (by rw [sa.dim]; simp), hbi, sa.size]
      simp only [Outcome.bind_ok]
      rw [if_neg (by omega), List.prod_append, hn, List.prod_singleton, tdiv_blocks (n + 1) c hc]
      exact ⟨_, rfl⟩

theorem dft_self_real_throws (d : Impl) (a : Arr ρ) : ∃ e, callSelf d (.float a : Data ρ κ) = .thrown (.error e) := by
  unfold callSelf
  simp only [atype, Outcome.bind_ok]
  split
  · exact ⟨_, rfl⟩
  · split
    · exact ⟨_, rfl⟩
    · rename_i h1 h2
      exfalso
      simp only [ne_eq, Option.some.injEq, not_not, inType, outType] at h1 h2
      cases hi : d.inverse <;> rw [hi] at h1 h2 <;> simp at h1 h2

/-- Nil as input or output throws. -/
theorem dft_nil_throws [Field ρ] [Field κ] (K : Kiss ρ κ) (d : Impl) (y : Data ρ κ) :
    (∃ e, callInto K d .nil y = .thrown (.error e)) ∧ (∃ e, callInto K d y .nil = .thrown (.error e)) ∧ ∃ e, callSelf d (.nil : Data ρ κ) = .thrown (.error e) := by
  refine ⟨by cases y <;> exact ⟨_, rfl⟩, ?_, ⟨_, rfl⟩⟩
  have h : ∀ (y : Data ρ κ) t, y ≠ .number → atype y = .ok t → ∃ e, callInto K d y .nil = .thrown (.error e) := by
    intro y t hy ht
    unfold callInto scalar
    cases y <;> first | exact absurd rfl hy | (exfalso; cases ht; done) | (simp only [ht, Outcome.bind_ok]; split <;> exact ⟨_, rfl⟩)
  cases y with
  | nil => exact ⟨_, rfl⟩
  | number => exact ⟨_, rfl⟩
  | float a => exact h _ _ (by simp) rfl
  | cfloat a => exact h _ _ (by simp) rfl
  | other k a => exact h _ _ (by simp) rfl

/-- So does a call with nil that makes the output. -/
theorem dft_nil_new_throws [Field ρ] [Field κ] (K : Kiss ρ κ) (d : Impl) (hd : 0 < d.oSize) (hb : d.oSize < 2 ^ 31) (junkR : List ρ) (junkC : List κ)
    (hR : junkR.length = d.oSize) (hC : junkC.length = d.oSize) : ∃ e, call K d junkR junkC .nil = .thrown (.error e) := by
  have hn : ∀ {β : Type} (junk : List β), junk.length = d.oSize → newView [(d.oSize : Int)] junk = .ok ⟨junk, some (0 :: flat [(d.oSize : Int)])⟩ := by
    intro β junk hj
    exact (newView_eq (junk := junk) (by simp) (by simpa using hd) (by simp [hj]) (by simpa using lt_max hb)).1
  unfold call alloc
  have hs : ipSet [(0 : Int)] 0 (d.oSize : Int) = .ok [(d.oSize : Int)] := rfl
  simp only [shapeOf, List.length_singleton, Nat.sub_self, hs, Outcome.bind_ok]
  cases outType d with
  | float => simp only [hn junkR hR, Outcome.bind_ok]; exact ⟨_, rfl⟩
  | cfloat => simp only [hn junkC hC, Outcome.bind_ok]; exact ⟨_, rfl⟩

example : ∃ d : Impl, make 4 false .float = .ok d ∧ 0 < d.oSize ∧ d.oSize < 2 ^ 31 := ⟨_, rfl, by decide, by decide⟩

/-- Real transforms of odd size are not refused: the constructor succeeds, but has no configuration, and transforming anything is undefined. -/
theorem dft_odd_undefined (hm : m % 2 = 1) (a : Arr ℝ) (b : Arr ℂ) (o' : Nat) (w : Int) (hn : lead.prod = ((n + 1 : Nat) : Int)) (hc : 0 < c)
    (ha : Shaped a o (lead ++ [(c : Int)])) (hb : Shaped b o' (lead ++ [w])) :
    ∃ d, make m false .float = .ok d ∧ callInto K d (.float a) (.cfloat b) = .ub .nullDeref := by
  obtain ⟨sa, pa, la⟩ := ha.shape
  obtain ⟨sb, pb, lb⟩ := hb.shape
  refine ⟨_, rfl, ?_⟩
  rw [if_neg (by omega)]
  have hbi := blockStep_eq sa
  simp only [List.length_singleton, List.prod_singleton] at hbi
  have hbo := blockStep_eq sb
  simp only [List.length_singleton, List.prod_singleton] at hbo
  have : broadcastTo (vector none (fun n => n) K.fftr a b) a b = .ub .nullDeref := by
    unfold broadcastTo
    rw [if_neg (by rw [sa.dim]; simp), hbi, hbo, sa.size]
    simp only [Outcome.bind_ok]
    rw [if_neg (by omega), List.prod_append, hn, List.prod_singleton, tdiv_blocks (n + 1) c hc, blocks]
    have hv : ∀ i j dst, vector none (fun n => n) K.fftr a b i j dst = .ub .nullDeref := by
      intro i j dst
      unfold vector
      rw [sa.offset, sb.offset]
      rfl
    rw [hv]
    rfl
  unfold callInto scalar
  simp only [atype, inType, outType, Outcome.bind_ok]
  simp only [Bool.false_eq_true, if_false, ne_eq, not_true_eq_false]
  unfold run
  simp only [Bool.false_eq_true, if_false]
  rw [this]
  rfl

/-- Rows shorter than the transform are not refused: at the end of the storage what is behind it is read. -/
theorem dft_short_rows_undefined (hK : Contract K) (hcm : c < m) (a b : Arr ℂ) (o' : Nat) (hn : lead.prod = ((n + 1 : Nat) : Int)) (hc : 0 < c)
    (ha : Shaped a o (lead ++ [(c : Int)])) (hend : o + (n + 1) * c = a.data.length) (hb : Shaped b o' (lead ++ [(m : Int)])) :
    ∃ d, make m false .cfloat = .ok d ∧ callInto K d (.cfloat a) (.cfloat b) = .ub .outOfBounds := by
  obtain ⟨sa, pa, la⟩ := ha.shape
  obtain ⟨sb, pb, lb⟩ := hb.shape
  refine ⟨_, rfl, ?_⟩
  have hbo := blockStep_eq sb
  simp only [List.length_singleton, List.prod_singleton] at hbo
  have := rows_short (m := m) (r := m) (cnt := fun n => n) (f := K.fft) sa hn hc hend sb.offset hbo (room hn pb).1 rfl hcm (fun row hr => by
    obtain ⟨x, rfl⟩ := exists_ofFn row hr
    rw [hK.fft m x (by omega), List.length_ofFn])
  unfold callInto scalar
  simp only [atype, inType, outType, Outcome.bind_ok]
  simp only [Bool.false_eq_true, if_false, ne_eq, not_true_eq_false]
  unfold run
  simp only
  rw [this]
  rfl

/-- The same for real numbers. -/
theorem dft_short_real_undefined (hK : Contract K) (he : m % 2 = 0) (hcm : c < m) (a : Arr ℝ) (b : Arr ℂ) (o' : Nat) (hn : lead.prod = ((n + 1 : Nat) : Int)) (hc : 0 < c)
    (ha : Shaped a o (lead ++ [(c : Int)])) (hend : o + (n + 1) * c = a.data.length) (hb : Shaped b o' (lead ++ [((m / 2 + 1 : Nat) : Int)])) :
    ∃ d, make m false .float = .ok d ∧ callInto K d (.float a) (.cfloat b) = .ub .outOfBounds := by
  obtain ⟨sa, pa, la⟩ := ha.shape
  obtain ⟨sb, pb, lb⟩ := hb.shape
  refine ⟨_, rfl, ?_⟩
  rw [if_pos he]
  have hbo := blockStep_eq sb
  simp only [List.length_singleton, List.prod_singleton] at hbo
  have := rows_short (m := m) (r := m) (cnt := fun n => n) (f := K.fftr) sa hn hc hend sb.offset hbo (room hn pb).1 rfl hcm (fun row hr => by
    obtain ⟨x, rfl⟩ := exists_ofFn row hr
    rw [hK.fftr m x (by omega) he, List.length_ofFn])
  unfold callInto scalar
  simp only [atype, inType, outType, Outcome.bind_ok]
  simp only [Bool.false_eq_true, if_false, ne_eq, not_true_eq_false]
  unfold run
  simp only
  rw [this]
  rfl

/-- Three numbers for a transform of size 4, 3 for one of size 3, and room for the results. -/
example : Shaped (⟨[1, 2, 3], none⟩ : Arr ℝ) 0 ([] ++ [((3 : Nat) : Int)]) ∧ ([] : List Int).prod = ((0 + 1 : Nat) : Int) ∧ 0 + (0 + 1) * 3 = ([1, 2, 3] : List ℝ).length ∧
    Shaped (⟨[0, 0, 0], some [0, 3, 1]⟩ : Arr ℂ) 0 ([] ++ [((4 / 2 + 1 : Nat) : Int)]) ∧ Shaped (⟨[0, 0, 0, 0], none⟩ : Arr ℂ) 0 ([] ++ [((4 : Nat) : Int)]) :=
  ⟨.plain rfl (by norm_num), rfl, rfl, .view 0 [3] rfl (by norm_num), .plain rfl (by norm_num)⟩

end Libube.Dft

#print axioms Libube.Dft.dft_complex_into_partial
#print axioms Libube.Dft.idft_complex_into_partial
#print axioms Libube.Dft.dft_real_into_partial
#print axioms Libube.Dft.idft_real_into_partial
#print axioms Libube.Dft.dft_complex_partial
#print axioms Libube.Dft.idft_complex_partial
#print axioms Libube.Dft.dft_real_partial
#print axioms Libube.Dft.idft_real_partial
#print axioms Libube.Dft.idft_dft_complex_partial
#print axioms Libube.Dft.dft_idft_complex_partial
#print axioms Libube.Dft.idft_dft_real_partial
#print axioms Libube.Dft.dft_type_refused
#print axioms Libube.Dft.dft_wrong_type_throws
#print axioms Libube.Dft.dft_number_throws
#print axioms Libube.Dft.dft_self_throws
#print axioms Libube.Dft.dft_self_real_throws
#print axioms Libube.Dft.dft_nil_throws
#print axioms Libube.Dft.dft_nil_new_throws
#print axioms Libube.Dft.dft_odd_undefined
#print axioms Libube.Dft.dft_short_rows_undefined
#print axioms Libube.Dft.dft_short_real_undefined

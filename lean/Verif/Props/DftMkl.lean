import Verif.Lemmas.DftMkl
import Verif.Props.Dft

/-! # Properties of transforms with the MKL (C149, C150)

Arithmetic is exact here; what the library computes is assumed (`DftMklSpec.Contract`). -/

namespace Libube.DftMkl

open View Transpose Rows Reduce RowsSpec ReduceSpec ViewSpec DftSpec DftMklSpec

variable {M : Dfti ℝ ℂ} {o n c m : Nat} {lead : List Int}

theorem kiss_contract (hM : DftMklSpec.Contract M) : DftSpec.Contract (kiss M) where
  fft n x hn := hM.forwardC n x hn
  ifft n z hn := hM.backwardC n z hn
  fftr n x hn _ := hM.forwardR n x hn
  fftri n z hn he := by
    have := hM.backwardR n z hn
    simp only [whole_even hn he] at this
    exact this

theorem proper_float (a : Arr ρ) : Proper (.float a : Dft.Data ρ κ) := fun _ _ h => by cases h
theorem proper_cfloat (a : Arr κ) : Proper (.cfloat a : Dft.Data ρ κ) := fun _ _ h => by cases h

/-! ## C149: what is computed -/

/-- C149 for real numbers, `DFT(m)(x, y)`, of every size: each row of `y` becomes the first half of the transform of the first `m` elements of
    the row of `x`; nothing else in the storage of `y` changes. -/
theorem mkl_real_into_partial (hM : DftMklSpec.Contract M) (hm : 0 < m) (he : M.error m = none) (hmc : m ≤ c) (a : Arr ℝ) (b : Arr ℂ) (o' : Nat) (hn : lead.prod = n)
    (ha : Shaped a o (lead ++ [(c : Int)])) (hb : Shaped b o' (lead ++ [((m / 2 + 1 : Nat) : Int)])) :
    ∃ d y, make M m false .float = .ok d ∧ callInto M d (.float a) (.cfloat b) = .ok (.cfloat ⟨y, b.ip⟩) ∧
      RowsTo a.data o c m y o' (m / 2 + 1) n (fun x => dft m (fun j => (x j : ℂ))) ∧ OnlyIn b.data y o' (n * (m / 2 + 1)) := by
  obtain ⟨sa, pa, la⟩ := ha.shape
  obtain ⟨sb, pb, lb⟩ := hb.shape
  obtain ⟨y, e, h1, h2, h3⟩ := Dft.run_fftr_of (K := kiss M) (fun x => hM.forwardR m x hm) hm hmc hn sa pa sb (room hn pb).1
  exact ⟨⟨m, .float, m / 2 + 1, false⟩, y, by simp [make, check, he], e, h2, h1, h3⟩

/-- The inverse to real numbers, from the first half of a spectrum. -/
theorem mkl_inverse_real_into_partial (hM : DftMklSpec.Contract M) (hm : 0 < m) (he : M.error m = none) (hmc : m / 2 + 1 ≤ c) (a : Arr ℂ) (b : Arr ℝ) (o' : Nat)
    (hn : lead.prod = n) (ha : Shaped a o (lead ++ [(c : Int)])) (hb : Shaped b o' (lead ++ [(m : Int)])) :
    ∃ d y, make M m true .float = .ok d ∧ callInto M d (.cfloat a) (.float b) = .ok (.float ⟨y, b.ip⟩) ∧
      RowsTo a.data o c (m / 2 + 1) y o' m n (fun z j => (idft m (whole m z) j).re / m) ∧ OnlyIn b.data y o' (n * m) := by
  obtain ⟨sa, pa, la⟩ := ha.shape
  obtain ⟨sb, pb, lb⟩ := hb.shape
  obtain ⟨y, e, h1, h2, h3⟩ := Dft.run_fftri_of (K := kiss M) (F := fun z j => (idft m (whole m z) j).re) (fun z => hM.backwardR m z hm) hm hmc hn sa pa sb (room hn pb).1
  exact ⟨⟨m, .float, m, true⟩, y, by simp [make, check, he], e, h2, h1, h3⟩

/-- C149 for complex numbers, forward and inverse. -/
theorem mkl_complex_into_partial (hM : DftMklSpec.Contract M) (hm : 0 < m) (he : M.error m = none) (hmc : m ≤ c) (a b : Arr ℂ) (o' : Nat) (hn : lead.prod = n)
    (ha : Shaped a o (lead ++ [(c : Int)])) (hb : Shaped b o' (lead ++ [(m : Int)])) :
    (∃ d y, make M m false .cfloat = .ok d ∧ callInto M d (.cfloat a) (.cfloat b) = .ok (.cfloat ⟨y, b.ip⟩) ∧
      RowsTo a.data o c m y o' m n (dft m) ∧ OnlyIn b.data y o' (n * m)) ∧
    ∃ d y, make M m true .cfloat = .ok d ∧ callInto M d (.cfloat a) (.cfloat b) = .ok (.cfloat ⟨y, b.ip⟩) ∧
      RowsTo a.data o c m y o' m n (fun z j => idft m z j / m) ∧ OnlyIn b.data y o' (n * m) := by
  obtain ⟨sa, pa, la⟩ := ha.shape
  obtain ⟨sb, pb, lb⟩ := hb.shape
  obtain ⟨y, e, h1, h2, h3⟩ := Dft.run_fft (kiss_contract hM) hm hmc hn sa pa sb (room hn pb).1
  obtain ⟨y', e', h1', h2', h3'⟩ := Dft.run_ifft (kiss_contract hM) hm hmc hn sa pa sb (room hn pb).1
  exact ⟨⟨⟨m, .cfloat, m, false⟩, y, by simp [make, check, he], e, h2, h1, h3⟩,
    ⟨⟨m, .cfloat, m, true⟩, y', by simp [make, check, he], e', h2', h1', h3'⟩⟩

/-- C149 for real numbers of every size and a new array: the last dimension is `m/2 + 1`.  Missing for the full claim: rows shorter than `m`
    (`mkl_short_rows_undefined`) and double precision (`mkl_double_throws`, `mkl_cdouble_refused`). -/
theorem mkl_real_partial (hM : DftMklSpec.Contract M) (hm : 0 < m) (he : M.error m = none) (hmc : m ≤ c) (a : Arr ℝ) (hn : lead.prod = n) (hlead : ∀ d ∈ lead, 0 < d)
    (ha : Shaped a o (lead ++ [(c : Int)])) (junkR : List ℝ) (junkC : List ℂ) (junkD : List Unit) (hj : junkC.length = n * (m / 2 + 1)) :
    ∃ d out y, make M m false .float = .ok d ∧ call M d junkR junkC junkD (.float a) = .ok (.cfloat out) ∧
      NewArray out (lead ++ [((m / 2 + 1 : Nat) : Int)]) y ∧ RowsTo a.data o c m y 0 (m / 2 + 1) n (fun x => dft m (fun j => (x j : ℂ))) := by
  obtain ⟨sa, pa, la⟩ := ha.shape
  have hle : m / 2 + 1 ≤ m := by omega
  have hb : n * (m / 2 + 1) < 2147483648 := by
    have := (room hn pa).1
    have : n * (m / 2 + 1) ≤ n * c := Nat.mul_le_mul_left n (by omega)
    omega
  obtain ⟨-, hnew⟩ := newLast sa hlead hn (Nat.succ_pos _) junkC hj hb
  obtain ⟨hs, -, -, -, -⟩ := hnew junkC hj
  obtain ⟨y, e, h1, h2, h3⟩ := Dft.run_fftr_of (K := kiss M) (fun x => hM.forwardR m x hm) hm hmc hn sa pa hs (by simp [hj])
  refine ⟨⟨m, .float, m / 2 + 1, false⟩, _, y, by simp [make, check, he], ?_, (hnew y (h1.trans hj)).2.2.1, h2⟩
  rw [call_float M _ _ _ _ _ _ (proper_float a)]
  unfold Dft.call
  rw [Dft.alloc_eq sa hlead hn (w := m / 2 + 1) rfl (Nat.succ_pos _) hb hj (x := .float a) rfl, Outcome.bind_ok]
  exact e

theorem mkl_inverse_real_partial (hM : DftMklSpec.Contract M) (hm : 0 < m) (he : M.error m = none) (hmc : m / 2 + 1 ≤ c) (a : Arr ℂ) (hn : lead.prod = n)
    (hlead : ∀ d ∈ lead, 0 < d) (hb : n * m < 2 ^ 31)
    (ha : Shaped a o (lead ++ [(c : Int)])) (junkR : List ℝ) (junkC : List ℂ) (junkD : List Unit) (hj : junkR.length = n * m) :
    ∃ d out y, make M m true .float = .ok d ∧ call M d junkR junkC junkD (.cfloat a) = .ok (.float out) ∧
      NewArray out (lead ++ [(m : Int)]) y ∧ RowsTo a.data o c (m / 2 + 1) y 0 m n (fun z j => (idft m (whole m z) j).re / m) := by
  obtain ⟨sa, pa, la⟩ := ha.shape
  obtain ⟨-, hnew⟩ := newLast sa hlead hn hm junkR hj hb
  obtain ⟨hs, -, -, -, -⟩ := hnew junkR hj
  obtain ⟨y, e, h1, h2, h3⟩ := Dft.run_fftri_of (K := kiss M) (F := fun z j => (idft m (whole m z) j).re) (fun z => hM.backwardR m z hm) hm hmc hn sa pa hs (by simp [hj])
  refine ⟨⟨m, .float, m, true⟩, _, y, by simp [make, check, he], ?_, (hnew y (h1.trans hj)).2.2.1, h2⟩
  rw [call_float M _ _ _ _ _ _ (proper_cfloat a)]
  unfold Dft.call
  rw [Dft.alloc_eq sa hlead hn (w := m) rfl hm hb hj (x := .cfloat a) rfl, Outcome.bind_ok]
  exact e

/-- C149 for complex numbers and a new array. -/
theorem mkl_complex_partial (hM : DftMklSpec.Contract M) (hm : 0 < m) (he : M.error m = none) (hmc : m ≤ c) (a : Arr ℂ) (hn : lead.prod = n) (hlead : ∀ d ∈ lead, 0 < d)
    (ha : Shaped a o (lead ++ [(c : Int)])) (junkR : List ℝ) (junkC : List ℂ) (junkD : List Unit) (hj : junkC.length = n * m) :
    (∃ d out y, make M m false .cfloat = .ok d ∧ call M d junkR junkC junkD (.cfloat a) = .ok (.cfloat out) ∧
      NewArray out (lead ++ [(m : Int)]) y ∧ RowsTo a.data o c m y 0 m n (dft m)) ∧
    ∃ d out y, make M m true .cfloat = .ok d ∧ call M d junkR junkC junkD (.cfloat a) = .ok (.cfloat out) ∧
      NewArray out (lead ++ [(m : Int)]) y ∧ RowsTo a.data o c m y 0 m n (fun z j => idft m z j / m) := by
  constructor
  · obtain ⟨d, out, y, hd, h1, h2, h3⟩ := Dft.dft_complex_partial (kiss_contract hM) hm hmc a hn hlead ha junkR junkC hj
    cases hd
    exact ⟨⟨m, .cfloat, m, false⟩, out, y, by simp [make, check, he], by rw [call_cfloat M _ _ _ _ _ _ (proper_cfloat a)]; exact h1, h2, h3⟩
  · obtain ⟨d, out, y, hd, h1, h2, h3⟩ := Dft.idft_complex_partial (kiss_contract hM) hm hmc a hn hlead ha junkR junkC hj
    cases hd
    exact ⟨⟨m, .cfloat, m, true⟩, out, y, by simp [make, check, he], by rw [call_cfloat M _ _ _ _ _ _ (proper_cfloat a)]; exact h1, h2, h3⟩

/-- C149: the inverse undoes the transform of real numbers, for odd sizes too. -/
theorem mkl_inverse_undoes_real_partial (hM : DftMklSpec.Contract M) (hm : 0 < m) (he : M.error m = none) (a : Arr ℝ) (hn : lead.prod = n) (hlead : ∀ d ∈ lead, 0 < d)
    (ha : Shaped a o (lead ++ [(m : Int)])) (junkR junkR' : List ℝ) (junkC junkC' : List ℂ) (junkD : List Unit) (hj : junkC.length = n * (m / 2 + 1)) (hj' : junkR'.length = n * m) :
    ∃ f g z x, make M m false .float = .ok f ∧ make M m true .float = .ok g ∧ call M f junkR junkC junkD (.float a) = .ok z ∧
      call M g junkR' junkC' junkD z = .ok (.float x) ∧ NewArray x (lead ++ [(m : Int)]) ((a.data.drop o).take (n * m)) := by
  obtain ⟨f, z, y, hf, h1, h2, h3⟩ := mkl_real_partial hM hm he (le_refl m) a hn hlead ha junkR junkC junkD hj
  obtain ⟨-, pa, la⟩ := ha.shape
  have hr := (room hn pa).1
  have hprod : ∀ w : Nat, (lead ++ [(w : Int)]).prod = ((n * w : Nat) : Int) := fun w => by
    rw [List.prod_append, hn, List.prod_singleton]; push_cast; ring
  have hle : n * (m / 2 + 1) ≤ n * m := Nat.mul_le_mul_left n (by omega)
  have hy : y.length = n * (m / 2 + 1) := by have := h2.2; rw [hprod] at this; omega
  obtain ⟨hz, sz⟩ := Dft.newArray_shaped h2 (by omega)
  obtain ⟨g, x, w, hg, g1, g2, g3⟩ := mkl_inverse_real_partial hM hm he (le_refl _) z hn hlead (by omega) sz junkR' junkC' junkD hj'
  refine ⟨f, g, _, x, hf, hg, h1, g1, ?_⟩
  have hw : w.length = n * m := by have := g2.2; rw [hprod] at this; omega
  have : w = (a.data.drop o).take (n * m) := by
    refine Dft.rows_same hr hw hm (fun i u hi hu => ?_)
    have e1 := h3 i u hi hu
    rw [← hz] at e1
    have e2 := g3 i _ hi e1
    rw [Nat.zero_add] at e2
    have e3 : (fun k : Fin m => (idft m (whole m (fun k : Fin (m / 2 + 1) => dft m (fun j => (u j : ℂ)) k)) k).re / m) = u := by
      funext k
      rw [idft_whole_dft hm]
      have : (m : ℝ) ≠ 0 := by exact_mod_cast hm.ne'
      field_simp
    rwa [e3] at e2
  rwa [this] at g2

/-! ### What is missing -/

/-- The full claim fails: the constructor accepts double precision, but no call does anything but throw. -/
theorem mkl_double_throws [Field ρ] [Field κ] (M : Dfti ρ κ) (size : Nat) (inverse : Bool) (he : M.error size = none) :
    ∃ d, make M size inverse .double = .ok d ∧ (∀ x y, ∃ e, callInto M d x y = .thrown (.error e)) ∧ ∀ x : Dft.Data ρ κ, ∃ e, callSelf d x = .thrown (.error e) := by
  refine ⟨⟨size, .double, if inverse then size else size / 2 + 1, inverse⟩, by simp [make, check, he], fun x y => ?_, fun x => ?_⟩
  · cases inverse <;> cases x <;> cases y <;> first
      | exact ⟨_, rfl⟩
      | (rename_i k a k' a'; cases k <;> exact ⟨_, rfl⟩)
      | (rename_i k a b; cases k <;> exact ⟨_, rfl⟩)
      | (rename_i k a; cases k <;> exact ⟨_, rfl⟩)
  · cases inverse <;> cases x <;> first
      | exact ⟨_, rfl⟩
      | (rename_i k a; cases k <;> exact ⟨_, rfl⟩)

/-- Nor does a call that makes the output, of an array in double precision. -/
theorem mkl_double_new_throws [Field ρ] [Field κ] (M : Dfti ρ κ) (hm : 0 < m) (he : M.error m = none) (a : Arr Unit) (hn : lead.prod = n) (hlead : ∀ d ∈ lead, 0 < d)
    (hc : 0 < c) (hb : n * m < 2 ^ 31) (ha : Shaped a o (lead ++ [(c : Int)])) (inverse : Bool) (junkR : List ρ) (junkC : List κ) (junkD : List Unit) :
    ∃ d, make M m inverse .double = .ok d ∧ (junkD.length = n * d.oSize →
      ∃ e, call M d junkR junkC junkD (.other (if inverse then .cdouble else .double) a) = .thrown (.error e)) := by
  obtain ⟨d, hd, h1, -⟩ := mkl_double_throws M m inverse he
  refine ⟨d, hd, fun hj => ?_⟩
  have hd' : d = ⟨m, .double, if inverse then m else m / 2 + 1, inverse⟩ := by
    simp only [make, check, he] at hd
    injection hd with hd
    exact hd.symm
  obtain ⟨sa, pa, la⟩ := ha.shape
  have hs0 : 0 < d.oSize := by rw [hd']; show 0 < if inverse then m else m / 2 + 1; split <;> omega
  have hs1 : d.oSize ≤ m := by rw [hd']; show (if inverse then m else m / 2 + 1) ≤ m; split <;> omega
  have hb' : n * d.oSize < 2147483648 := by
    have : n * d.oSize ≤ n * m := Nat.mul_le_mul_left n hs1
    omega
  have h := (newLast sa hlead hn hs0 junkD hj hb').1
  have hal : ∃ y, alloc d junkR junkC junkD (.other (if inverse then .cdouble else .double) a) = .ok y := by
    unfold alloc
    simp only [Dft.shapeOf]
    have h1 : shapeLoop a 0 (lead ++ [(c : Int)]).length = .ok (lead ++ [(c : Int)]) := sa.shapeLoop [] _ rfl
    rw [sa.dim, h1, Outcome.bind_ok] at h ⊢
    cases hi : ipSet (lead ++ [(c : Int)]) ((lead ++ [(c : Int)]).length - 1) (d.oSize : Int) with
    | ok s =>
      rw [hi, Outcome.bind_ok] at h
      simp only [Outcome.bind_ok]
      rw [hd']
      cases inverse
      · simp only; rw [h]; exact ⟨_, rfl⟩
      · simp only; rw [h]; exact ⟨_, rfl⟩
    | _ => rw [hi] at h; cases h
  obtain ⟨y, hy⟩ := hal
  obtain ⟨e, h2⟩ := h1 (.other (if inverse then .cdouble else .double) a) y
  refine ⟨e, ?_⟩
  unfold call
  rw [hy, Outcome.bind_ok]
  exact h2

/-- The constructor refuses complex numbers of double precision, although there is code for them. -/
theorem mkl_cdouble_refused (M : Dfti ρ κ) (size : Nat) (inverse : Bool) : make M size inverse .cdouble = .thrown (.error "DFTBase::DFTBase: Unknown type") := rfl

/-- Rows shorter than what is transformed are read past the end: undefined if it is also past the end of the storage. -/
theorem mkl_short_rows_undefined [Field ρ] [Field κ] (M : Dfti ρ κ) (he : M.error 4 = none) :
    ∃ d, make M 4 false .float = .ok d ∧ ∀ (x : ρ) (y : κ), callInto M d (.float ⟨[x, x], some [0, 1, 2, 2, 1]⟩) (.cfloat ⟨[y, y, y], some [0, 1, 3, 3, 1]⟩) = .ub .outOfBounds :=
  ⟨⟨4, .float, 3, false⟩, by simp [make, check, he], fun x y => rfl⟩

/-- An error of the library is thrown by the constructor. -/
theorem mkl_error_thrown (M : Dfti ρ κ) (size : Nat) (inverse : Bool) (t : Kind) (e : String) (h : M.error size = some e) : ∃ e', make M size inverse t = .thrown (.error e') := by
  cases t <;> simp [make, check, h]

/-! ## C150: the same as with Kiss FFT -/

theorem agree {K : Dft.Kiss ℝ ℂ} (hK : DftSpec.Contract K) (hM : DftMklSpec.Contract M) (hm : 0 < m) (d : Dft.Impl) (hd : d.fwd = .cfloat ∨ m % 2 = 0) : Agree (kiss M) K d m := by
  have hM' := kiss_contract hM
  obtain ⟨cfg, f, s, i⟩ := d
  cases i <;> cases f <;> intro row hrow <;> obtain ⟨x, rfl⟩ := Dft.exists_ofFn row hrow
  · have he : m % 2 = 0 := hd.resolve_left (by simp)
    rw [hM'.fftr m x hm he, hK.fftr m x hm he]
  · rw [hM'.fft m x hm, hK.fft m x hm]
  · have he : m % 2 = 0 := hd.resolve_left (by simp)
    rw [hM'.fftri m x hm he, hK.fftri m x hm he]
  · rw [hM'.ifft m x hm, hK.ifft m x hm]

/-- C150: transforms in single precision, complex ones of any size and real ones of even size, have the same outcome with either library:
    results, exceptions and what is undefined. -/
theorem mkl_same {K : Dft.Kiss ℝ ℂ} (hK : DftSpec.Contract K) (hM : DftMklSpec.Contract M) (hm : 0 < m) (he : M.error m = none) (t : Kind)
    (ht : t = .cfloat ∨ t = .float ∧ m % 2 = 0) (inverse : Bool) :
    ∃ d d', Dft.make m inverse t = .ok d ∧ make M m inverse t = .ok d' ∧
      (∀ x y, Proper x → Proper y → callInto M d' x y = Dft.callInto K d x y) ∧
      (∀ junkR junkC junkD x, Proper x → call M d' junkR junkC junkD x = Dft.call K d junkR junkC x) ∧
      ∀ x : Dft.Data ℝ ℂ, Proper x → callSelf d' x = Dft.callSelf d x := by
  rcases ht with rfl | ⟨rfl, h2⟩
  · have ha : Agree (kiss M) K ⟨some m, .cfloat, m, inverse⟩ m := agree hK hM hm _ (.inl rfl)
    refine ⟨⟨some m, .cfloat, m, inverse⟩, ⟨m, .cfloat, m, inverse⟩, rfl, by simp [make, check, he], fun x y hx hy => ?_, fun jR jC jD x hx => ?_, fun x hx => ?_⟩
    · unfold callInto Dft.callInto
      rw [scalar_cfloat M _ _ _ hx hy, scalar_congr rfl ha]
    · rw [call_cfloat M _ _ _ _ _ _ hx]
      unfold Dft.call
      simp only [scalar_congr rfl ha]
    · cases x <;> cases inverse <;> first
        | rfl
        | (rename_i k a; obtain ⟨h1, h2⟩ := hx k a rfl
           simp [callSelf, Dft.callSelf, atype, Dft.atype, inType, Dft.inType, fwdType, invType, h1, h2])
  · have ha : Agree (kiss M) K ⟨some m, .float, if inverse then m else m / 2 + 1, inverse⟩ m := agree hK hM hm _ (.inr h2)
    refine ⟨⟨some m, .float, if inverse then m else m / 2 + 1, inverse⟩, ⟨m, .float, if inverse then m else m / 2 + 1, inverse⟩, by simp [Dft.make, h2],
      by simp [make, check, he], fun x y hx hy => ?_, fun jR jC jD x hx => ?_, fun x hx => ?_⟩
    · unfold callInto Dft.callInto
      rw [scalar_float M _ _ _ hx hy, scalar_congr rfl ha]
    · rw [call_float M _ _ _ _ _ _ hx]
      unfold Dft.call
      simp only [scalar_congr rfl ha]
    · cases x <;> cases inverse <;> first
        | rfl
        | (rename_i k a; obtain ⟨h1, h2⟩ := hx k a rfl
           simp [callSelf, Dft.callSelf, atype, Dft.atype, inType, Dft.inType, fwdType, invType, h1, h2])

/-! ### A library that keeps the contract, and an odd size -/

/-- The functions the contract describes. -/
noncomputable def exact : Dfti ℝ ℂ where
  error _ := none
  forwardC := Dft.exact.fft
  backwardC := Dft.exact.ifft
  forwardR := Dft.exact.fftr
  backwardR n xs := if h : xs.length = n / 2 + 1 then List.ofFn (fun k : Fin n => (idft n (whole n (fun j : Fin (n / 2 + 1) => xs[j.val]'(by rw [h]; exact j.isLt))) k).re) else []

theorem exact_contract : DftMklSpec.Contract exact where
  forwardC n x hn := Dft.exact_contract.fft n x hn
  backwardC n x hn := Dft.exact_contract.ifft n x hn
  forwardR n x _ := by simp [exact, Dft.exact]
  backwardR n x _ := by
    unfold exact
    simp only
    rw [dif_pos List.length_ofFn]
    simp only [List.getElem_ofFn]

/-- Two rows of three numbers, and room for their spectra. -/
example : DftMklSpec.Contract exact ∧ exact.error 3 = none ∧ Shaped (⟨[9, 1, 2, 3, 4, 5, 6], some [1, 2, 3, 3, 1]⟩ : Arr ℝ) 1 ([2] ++ [((3 : Nat) : Int)]) ∧
    Shaped (⟨[0, 0, 0, 0], some [0, 2, 2, 2, 1]⟩ : Arr ℂ) 0 ([2] ++ [((3 / 2 + 1 : Nat) : Int)]) ∧ (∀ d ∈ [(2 : Int)], 0 < d) ∧ ([2] : List Int).prod = ((2 : Nat) : Int) :=
  ⟨exact_contract, rfl, .view 1 [2, 3] rfl (by norm_num), .view 0 [2, 2] rfl (by norm_num), by decide, by decide⟩

/-- Vars that meet `Proper`. -/
example : Proper (.other .double ⟨[(), ()], none⟩ : Dft.Data ℝ ℂ) ∧ Proper (.float ⟨[1], none⟩ : Dft.Data ℝ ℂ) ∧ DftSpec.Contract Dft.exact :=
  ⟨fun k a h => by cases h; exact ⟨by decide, by decide⟩, proper_float _, Dft.exact_contract⟩

/-- A view of double precision numbers. -/
example : Shaped (⟨[(), (), (), ()], some [0, 1, 4, 4, 1]⟩ : Arr Unit) 0 ([1] ++ [((4 : Nat) : Int)]) := .view 0 [1, 4] rfl (by norm_num)

#print axioms mkl_real_into_partial
#print axioms mkl_inverse_real_into_partial
#print axioms mkl_complex_into_partial
#print axioms mkl_real_partial
#print axioms mkl_inverse_real_partial
#print axioms mkl_complex_partial
#print axioms mkl_inverse_undoes_real_partial
#print axioms mkl_double_throws
#print axioms mkl_double_new_throws
#print axioms mkl_cdouble_refused
#print axioms mkl_short_rows_undefined
#print axioms mkl_error_thrown
#print axioms mkl_same

end Libube.DftMkl

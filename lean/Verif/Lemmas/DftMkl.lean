import Verif.Spec.DftMkl
import Verif.Lemmas.DftRun
import Verif.Lemmas.TransposeMkl

/-! # Lemmas about transforms with the MKL -/

namespace Libube.DftMkl

open View Transpose Rows Reduce RowsSpec ReduceSpec ViewSpec DftSpec DftMklSpec

/-! ### The half spectrum -/

theorem dft_real_at {n : Nat} (hn : 0 < n) (x : Fin n → ℝ) {k : Nat} (hk : k = 0 ∨ 2 * k = n) :
    ((dft n (fun j => (x j : ℂ)) k).re : ℂ) = dft n (fun j => (x j : ℂ)) k := by
  rw [← Complex.conj_eq_iff_re]
  rcases hk with rfl | hk
  · have h := dft_conj hn x (k := 0) (by omega)
    rw [← h]
    unfold dft
    refine Finset.sum_congr rfl (fun j _ => ?_)
    congr 1
    rw [show (-((j.val * (n - 0) : Nat) : Int)) = (n : Int) * (-(j.val : Int)) by push_cast [Nat.sub_zero]; ring, root_self hn]
    simp [root_zero]
  · have h := dft_conj hn x (k := k) (by omega)
    rw [show n - k = k by omega] at h
    exact h.symm

/-- The spectrum of real numbers is given by its first half. -/
theorem whole_dft {n : Nat} (hn : 0 < n) (x : Fin n → ℝ) :
    whole n (fun k => dft n (fun j => (x j : ℂ)) k) = fun k : Fin n => dft n (fun j => (x j : ℂ)) k := by
  funext k
  unfold whole
  split
  · split
    · rename_i h
      exact dft_real_at hn x h
    · rfl
  · rename_i h
    have h' := dft_conj hn x (k := k.val) (by omega)
    show (starRingEnd ℂ) (dft n (fun j => (x j : ℂ)) (n - k.val)) = _
    rw [h', Complex.conj_conj]

theorem idft_whole_dft {n : Nat} (hn : 0 < n) (x : Fin n → ℝ) (j : Fin n) :
    (idft n (whole n (fun k => dft n (fun j => (x j : ℂ)) k)) j).re = n * x j := by
  rw [whole_dft hn, idft_dft hn]
  rw [← Complex.ofReal_natCast, ← Complex.ofReal_mul, Complex.ofReal_re]

/-- For even sizes this is what is said of Kiss FFT. -/
theorem whole_even {n : Nat} (hn : 0 < n) (he : n % 2 = 0) (z : Fin (n / 2 + 1) → ℂ) (j : Nat) : (idft n (whole n z) j).re = idftr n z j := by
  obtain ⟨m, hnn⟩ : ∃ m, n = 2 * (m + 1) := ⟨n / 2 - 1, by omega⟩
  have hm : n / 2 = m + 1 := by omega
  let w : Nat → ℂ := fun k => if h : k < n then whole n z ⟨k, h⟩ else 0
  let g : Nat → ℝ := fun k => (w k * root n (k * j : Nat)).re
  have hw : ∀ (k : Nat) (h : k < n), w k = whole n z ⟨k, h⟩ := fun k h => dif_pos h
  have h1 : (idft n (whole n z) j).re = ∑ k ∈ Finset.range n, g k := by
    unfold idft
    rw [Complex.re_sum, Finset.sum_range]
    exact Finset.sum_congr rfl (fun k _ => by simp only [g]; rw [hw k.val k.isLt])
  rw [h1, show Finset.range n = Finset.range (2 * (m + 1)) by rw [hnn], half_sum m g]
  · unfold idftr
    have hr : Finset.range (m + 2) = Finset.range (n / 2 + 1) := by rw [hm]
    rw [hr, Finset.sum_range]
    refine Finset.sum_congr rfl (fun k _ => ?_)
    have hk := k.isLt
    have hiff : (k.val = 0 ∨ k.val = n / 2) ↔ (k.val = 0 ∨ k.val = m + 1) := by omega
    have hiff' : (k.val = 0 ∨ 2 * k.val = n) ↔ (k.val = 0 ∨ k.val = m + 1) := by omega
    have hwk : w k.val = if k.val = 0 ∨ k.val = m + 1 then ((z k).re : ℂ) else z k := by
      rw [hw k.val (by omega)]
      unfold whole
      rw [dif_pos (show k.val ≤ n / 2 by omega)]
      by_cases h : k.val = 0 ∨ k.val = m + 1
      · rw [if_pos h, if_pos (hiff'.2 h)]
      · rw [if_neg h, if_neg (fun h' => h (hiff'.1 h'))]
    simp only [g]
    rw [hwk]
    by_cases h : k.val = 0 ∨ k.val = m + 1
    · rw [if_pos h, if_pos h, if_pos (hiff.2 h), if_pos (hiff.2 h)]
    · rw [if_neg h, if_neg h, if_neg (fun h' => h (hiff.1 h')), if_neg (fun h' => h (hiff.1 h'))]
  · intro k h0 h2
    have h2' : k < n := by omega
    have hconj : w (n - k) = (starRingEnd ℂ) (w k) := by
      rw [hw (n - k) (by omega), hw k h2']
      unfold whole
      by_cases ha : k < m + 1
      · rw [dif_neg (show ¬ (n - k ≤ n / 2) by omega), dif_pos (show k ≤ n / 2 by omega), if_neg (show ¬ (k = 0 ∨ 2 * k = n) by omega)]
        congr 2
        ext
        simp only
        omega
      · by_cases hb : k = m + 1
        · subst hb
          have hnk : n - (m + 1) = m + 1 := by omega
          rw [dif_pos (show n - (m + 1) ≤ n / 2 by omega), dif_pos (show m + 1 ≤ n / 2 by omega), if_pos (show n - (m + 1) = 0 ∨ 2 * (n - (m + 1)) = n by omega),
            if_pos (show m + 1 = 0 ∨ 2 * (m + 1) = n by omega), Complex.conj_ofReal]
          congr 3
          ext
          exact hnk
        · rw [dif_pos (show n - k ≤ n / 2 by omega), dif_neg (show ¬ k ≤ n / 2 by omega), if_neg (show ¬ (n - k = 0 ∨ 2 * (n - k) = n) by omega), Complex.conj_conj]
    have hr : root n ((n - k) * j : Nat) = (starRingEnd ℂ) (root n (k * j : Nat)) := by
      rw [root_conj]
      have : (((n - k) * j : Nat) : Int) = (n : Int) * (j : Int) + -((k * j : Nat) : Int) := by
        push_cast [Nat.cast_sub (le_of_lt h2')]
        ring
      rw [this, root_add, root_self hn, one_mul]
    simp only [g]
    rw [show 2 * (m + 1) - k = n - k by omega]
    rw [hconj, hr, ← map_mul, Complex.conj_re]

/-! ### The code is that for Kiss FFT -/

/-- The library in the place of Kiss FFT. -/
def kiss (M : Dfti ρ κ) : Dft.Kiss ρ κ := ⟨M.forwardC, M.backwardC, M.forwardR, M.backwardR⟩

theorem scalar_float [Field ρ] [Field κ] (M : Dfti ρ κ) (m s : Nat) (inv : Bool) {x o : Dft.Data ρ κ} (hx : Proper x) (ho : Proper o) :
    scalar M ⟨m, .float, s, inv⟩ x o = Dft.scalar (kiss M) ⟨some m, .float, s, inv⟩ x o := by
  cases inv <;> cases x <;> cases o <;>
    first
      | rfl
      | (rename_i k a k' a'; obtain ⟨h1, h2⟩ := hx k a rfl; obtain ⟨h3, h4⟩ := ho k' a' rfl
         simp [scalar, Dft.scalar, atype, Dft.atype, inType, outType, Dft.inType, Dft.outType, fwdType, invType, h1, h2, h3, h4]; done)
      | (rename_i k a b; obtain ⟨h1, h2⟩ := hx k a rfl
         simp [scalar, Dft.scalar, atype, Dft.atype, inType, outType, Dft.inType, Dft.outType, fwdType, invType, h1, h2]; done)
      | (rename_i b k a; obtain ⟨h1, h2⟩ := ho k a rfl
         simp [scalar, Dft.scalar, atype, Dft.atype, inType, outType, Dft.inType, Dft.outType, fwdType, invType, h1, h2]; done)
      | (rename_i k a; obtain ⟨h1, h2⟩ := hx k a rfl
         simp [scalar, Dft.scalar, atype, Dft.atype, inType, outType, Dft.inType, Dft.outType, fwdType, invType, h1, h2]; done)

theorem scalar_cfloat [Field ρ] [Field κ] (M : Dfti ρ κ) (m s : Nat) (inv : Bool) {x o : Dft.Data ρ κ} (hx : Proper x) (ho : Proper o) :
    scalar M ⟨m, .cfloat, s, inv⟩ x o = Dft.scalar (kiss M) ⟨some m, .cfloat, s, inv⟩ x o := by
  cases inv <;> cases x <;> cases o <;>
    first
      | rfl
      | (rename_i k a k' a'; obtain ⟨h1, h2⟩ := hx k a rfl; obtain ⟨h3, h4⟩ := ho k' a' rfl
         simp [scalar, Dft.scalar, atype, Dft.atype, inType, outType, Dft.inType, Dft.outType, fwdType, invType, h1, h2, h3, h4]; done)
      | (rename_i k a b; obtain ⟨h1, h2⟩ := hx k a rfl
         simp [scalar, Dft.scalar, atype, Dft.atype, inType, outType, Dft.inType, Dft.outType, fwdType, invType, h1, h2]; done)
      | (rename_i b k a; obtain ⟨h1, h2⟩ := ho k a rfl
         simp [scalar, Dft.scalar, atype, Dft.atype, inType, outType, Dft.inType, Dft.outType, fwdType, invType, h1, h2]; done)
      | (rename_i k a; obtain ⟨h1, h2⟩ := hx k a rfl
         simp [scalar, Dft.scalar, atype, Dft.atype, inType, outType, Dft.inType, Dft.outType, fwdType, invType, h1, h2]; done)

/-- The new array is the same. -/
theorem alloc_same (m s : Nat) (inv : Bool) (junkR : List ρ) (junkC : List κ) (junkD : List Unit) (x : Dft.Data ρ κ) :
    alloc ⟨m, .float, s, inv⟩ junkR junkC junkD x = Dft.alloc ⟨some m, .float, s, inv⟩ junkR junkC x ∧
    alloc ⟨m, .cfloat, s, inv⟩ junkR junkC junkD x = Dft.alloc ⟨some m, .cfloat, s, inv⟩ junkR junkC x := by
  cases inv <;> exact ⟨rfl, rfl⟩

/-- And an array of one of the two types. -/
theorem alloc_proper {d : Dft.Impl} {junkR : List ρ} {junkC : List κ} {x o : Dft.Data ρ κ} (h : Dft.alloc d junkR junkC x = .ok o) : Proper o := by
  intro k a ho
  exfalso
  subst ho
  unfold Dft.alloc at h
  cases h1 : Dft.shapeOf x with
  | ok s =>
    rw [h1, Outcome.bind_ok] at h
    cases h2 : ipSet s (s.length - 1) (d.oSize : Int) with
    | ok s' =>
      rw [h2, Outcome.bind_ok] at h
      cases h3 : Dft.outType d with
      | float =>
        rw [h3] at h
        simp only at h
        cases h4 : newView s' junkR with
        | ok b => rw [h4, Outcome.bind_ok] at h; cases h
        | _ => rw [h4] at h; cases h
      | cfloat =>
        rw [h3] at h
        simp only at h
        cases h4 : newView s' junkC with
        | ok b => rw [h4, Outcome.bind_ok] at h; cases h
        | _ => rw [h4] at h; cases h
    | _ => rw [h2] at h; cases h
  | _ => rw [h1] at h; cases h

theorem call_float [Field ρ] [Field κ] (M : Dfti ρ κ) (m s : Nat) (inv : Bool) (junkR : List ρ) (junkC : List κ) (junkD : List Unit) {x : Dft.Data ρ κ} (hx : Proper x) :
    call M ⟨m, .float, s, inv⟩ junkR junkC junkD x = Dft.call (kiss M) ⟨some m, .float, s, inv⟩ junkR junkC x := by
  unfold call Dft.call
  rw [(alloc_same m s inv junkR junkC junkD x).1]
  cases h : Dft.alloc ⟨some m, .float, s, inv⟩ junkR junkC x with
  | ok o => exact scalar_float M m s inv hx (alloc_proper h)
  | _ => rfl

theorem call_cfloat [Field ρ] [Field κ] (M : Dfti ρ κ) (m s : Nat) (inv : Bool) (junkR : List ρ) (junkC : List κ) (junkD : List Unit) {x : Dft.Data ρ κ} (hx : Proper x) :
    call M ⟨m, .cfloat, s, inv⟩ junkR junkC junkD x = Dft.call (kiss M) ⟨some m, .cfloat, s, inv⟩ junkR junkC x := by
  unfold call Dft.call
  rw [(alloc_same m s inv junkR junkC junkD x).2]
  cases h : Dft.alloc ⟨some m, .cfloat, s, inv⟩ junkR junkC x with
  | ok o => exact scalar_cfloat M m s inv hx (alloc_proper h)
  | _ => rfl

/-! ### Two libraries that compute the same -/

theorem vector_congr {f g : Nat → List α → List β} {m : Nat} {cnt : Nat → Nat} (h : ∀ row : List α, row.length = cnt m → f m row = g m row) (a : Arr α) (b : Arr β) :
    Dft.vector (some m) cnt f a b = Dft.vector (some m) cnt g a b := by
  funext offI offO dst
  unfold Dft.vector
  cases offset a with
  | ok p =>
    cases offset b with
    | ok q =>
      simp only [Outcome.bind_ok]
      rcases TransposeMkl.readRow_cases a.data (p + offI) (cnt m) 0 with ⟨row, e, hl, -⟩ | e <;> rw [e]
      · rw [Outcome.bind_ok, Outcome.bind_ok, h row hl]
      · rfl
    | _ => rfl
  | _ => rfl

/-- The functions that a transform uses. -/
def Agree (K K' : Dft.Kiss ρ κ) (d : Dft.Impl) (m : Nat) : Prop :=
  match d.inverse, d.fwd with
  | false, .float => ∀ row : List ρ, row.length = m → K.fftr m row = K'.fftr m row
  | false, .cfloat => ∀ row : List κ, row.length = m → K.fft m row = K'.fft m row
  | true, .float => ∀ row : List κ, row.length = m / 2 + 1 → K.fftri m row = K'.fftri m row
  | true, .cfloat => ∀ row : List κ, row.length = m → K.ifft m row = K'.ifft m row

theorem scalar_congr [Field ρ] [Field κ] {K K' : Dft.Kiss ρ κ} {d : Dft.Impl} {m : Nat} (hd : d.config = some m) (h : Agree K K' d m) (x o : Dft.Data ρ κ) :
    Dft.scalar K d x o = Dft.scalar K' d x o := by
  have hr : ∀ x o, Dft.run K d x o = Dft.run K' d x o := by
    intro x o
    obtain ⟨c, f, s, i⟩ := d
    cases hd
    cases i <;> cases f <;> simp only [Agree] at h <;> cases x <;> cases o <;>
      first
        | rfl
        | (rename_i a b; simp only [Dft.run]; rw [vector_congr (cnt := fun n => n) h a b]; done)
        | (rename_i a b; simp only [Dft.run]; rw [vector_congr (cnt := fun n => n / 2 + 1) h a b]; done)
  unfold Dft.scalar
  simp only [hr]

end Libube.DftMkl

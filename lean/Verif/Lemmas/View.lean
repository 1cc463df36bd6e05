import Mathlib.Algebra.Order.Ring.Int
import Mathlib.Algebra.Order.Ring.Abs
import Mathlib.Tactic.Ring
import Mathlib.Data.List.Induction
import Mathlib.Tactic.Linarith
import Verif.Model.View
import Verif.Spec.View

namespace Libube.View

open ViewSpec

/-- Shapes and strides of a row-major view. -/
def flat : List Int → List Int
  | [] => []
  | d :: ds => d :: ds.prod :: flat ds

theorem flat_length (s : List Int) : (flat s).length = 2 * s.length := by
  induction s with
  | nil => rfl
  | cons d ds ih => simp only [flat, List.length_cons, ih]; omega

theorem zflat_length (s : List Int) : (s.flatMap (fun d => [d, 0])).length = 2 * s.length := by
  induction s with
  | nil => rfl
  | cons d ds ih => simp only [List.flatMap_cons, List.length_append, List.length_cons, List.length_nil, ih]; omega

theorem cint_ok {x : Int} (h : -2 ^ 31 ≤ x ∧ x < 2 ^ 31) : cint x = .ok x := by rw [cint, if_pos h]
theorem cint_bad {x : Int} (h : ¬(-2 ^ 31 ≤ x ∧ x < 2 ^ 31)) : cint x = .ub .overflow := by rw [cint, if_neg h]

theorem cint_eq {x y : Int} (h : cint x = .ok y) : y = x ∧ -2 ^ 31 ≤ x ∧ x < 2 ^ 31 := by
  unfold cint at h
  split at h
  · rename_i hx; cases h; exact ⟨rfl, hx⟩
  · cases h

theorem strideLoop_step (o : Int) (q : List Int) (d : Int) (suf : List Int) :
    strideLoop (o :: ((q ++ [d]).flatMap (fun d => [d, 0]) ++ flat suf)) suf.prod (q ++ [d]).length =
    (cint ((d :: suf).prod)).bind fun p =>
      strideLoop (o :: (q.flatMap (fun d => [d, 0]) ++ flat (d :: suf))) p q.length := by
  have hz := zflat_length q
  rw [List.length_append, List.length_singleton, strideLoop]
  have e1 : o :: ((q ++ [d]).flatMap (fun d => [d, 0]) ++ flat suf) =
      (o :: q.flatMap (fun d => [d, 0])) ++ d :: 0 :: flat suf := by simp
  rw [e1]
  have hl : (o :: q.flatMap (fun d => [d, 0])).length = q.length * 2 + 1 := by
    rw [List.length_cons, hz]; omega
  rw [ipSet, if_pos (by rw [List.length_append, hl]; simp only [List.length_cons]; omega)]
  have e2 : ((o :: q.flatMap (fun d => [d, 0])) ++ d :: 0 :: flat suf).set (q.length * 2 + 2) suf.prod =
      (o :: q.flatMap (fun d => [d, 0])) ++ d :: suf.prod :: flat suf := by
    rw [List.set_append_right _ _ (by omega), hl]
    have : q.length * 2 + 2 - (q.length * 2 + 1) = 1 := by omega
    rw [this]; rfl
  simp only [Outcome.bind_ok]
  rw [e2, ipGet, List.getElem?_append_right (by omega), hl]
  simp only [Nat.sub_self, List.getElem?_cons_zero, Outcome.bind_ok]
  have e3 : suf.prod * d = (d :: suf).prod := by rw [List.prod_cons, mul_comm]
  rw [e3]
  rfl

theorem Fits.tail {d : Int} {ds : List Int} (h : Fits (d :: ds)) : Fits ds := h.2

theorem Fits.suffix {p s : List Int} (h : Fits (p ++ s)) : Fits s := by
  induction p with
  | nil => exact h
  | cons d ds ih => exact ih h.2

theorem strideLoop_ok (o : Int) (pre suf : List Int) (h : Fits (pre ++ suf)) :
    strideLoop (o :: (pre.flatMap (fun d => [d, 0]) ++ flat suf)) suf.prod pre.length =
      .ok (o :: flat (pre ++ suf), (pre ++ suf).prod) := by
  induction pre using List.reverseRecOn generalizing suf with
  | nil => rfl
  | append_singleton q d ih =>
    rw [strideLoop_step]
    have hf : Fits (q ++ d :: suf) := by simpa using h
    rw [cint_ok (Fits.suffix hf).1]
    show strideLoop _ _ _ = _
    rw [ih _ hf]
    simp

theorem strideLoop_bad (o : Int) (pre suf : List Int) (hs : Fits suf) (h : ¬Fits (pre ++ suf)) :
    strideLoop (o :: (pre.flatMap (fun d => [d, 0]) ++ flat suf)) suf.prod pre.length =
      .ub .overflow := by
  induction pre using List.reverseRecOn generalizing suf with
  | nil => exact absurd hs h
  | append_singleton q d ih =>
    rw [strideLoop_step]
    by_cases hd : -2 ^ 31 ≤ (d :: suf).prod ∧ (d :: suf).prod < 2 ^ 31
    · rw [cint_ok hd]
      show strideLoop _ _ _ = _
      exact ih (d :: suf) ⟨hd, hs⟩ (by simpa using h)
    · rw [cint_bad hd]; rfl

/-- What the constructor does, in full. -/
theorem mkView_eq (H : Nat) (base : Int) (sh : List Int) (off : Int) :
    mkView H base sh off = (cint (base + off)).bind fun o =>
      open Classical in
      if sh = [] then .thrown (.error "View::setStrides(): view must have dim > 0")
      else if Fits sh then (cint (sh.prod + o)).bind fun q =>
        if q > H then .thrown (.error "View::setStrides(): Array too small for view")
        else .ok (o :: flat sh)
      else .ub .overflow := by
  unfold mkView
  show Outcome.bind _ _ = _
  congr 1
  funext o
  unfold setStrides
  by_cases h : sh = []
  · subst h; rfl
  · have : ¬ sh.length < 1 := by
      cases sh
      · exact absurd rfl h
      · simp
    rw [if_neg this, if_neg h]
    have key : strideLoop (o :: sh.flatMap (fun d => [d, 0])) 1 sh.length =
        strideLoop (o :: (sh.flatMap (fun d => [d, 0]) ++ flat [])) (List.prod []) sh.length := by
      simp [flat]
    rw [key]
    by_cases hf : Fits sh
    · rw [if_pos hf, strideLoop_ok o sh [] (by simpa using hf)]
      simp only [Outcome.bind_ok, List.append_nil, ipGet, List.getElem?_cons_zero]
      rfl
    · rw [if_neg hf, strideLoop_bad o sh [] trivial (by simpa using hf)]
      rfl

/-- An array seen as an offset and a shape. -/
inductive HasShape (a : Arr α) : Int → List Int → Prop
  | view (o : Int) (sh : List Int) (hi : a.ip = some (o :: flat sh)) (hf : Fits sh) (hn : sh ≠ []) :
      HasShape a o sh
  | plain (hi : a.ip = none) (hl : (a.data.length : Int) < 2 ^ 31) :
      HasShape a 0 [(a.data.length : Int)]

theorem HasShape.fits {a : Arr α} {o sh} (h : HasShape a o sh) : Fits sh ∧ sh ≠ [] := by
  cases h with
  | view _ _ hi hf hn => exact ⟨hf, hn⟩
  | plain hi hl => simp only [Fits, List.prod_singleton, and_true, ne_eq, List.cons_ne_nil, not_false_eq_true]; omega

theorem HasShape.dim {a : Arr α} {o sh} (h : HasShape a o sh) : dim a = sh.length := by
  cases h with
  | view _ _ hi hf hn =>
    unfold View.dim; rw [hi]; simp only [List.length_cons, flat_length]; omega
  | plain hi hl => unfold View.dim; rw [hi]; rfl

theorem HasShape.offset {a : Arr α} {o sh} (h : HasShape a o sh) : offset a = .ok o := by
  cases h with
  | view _ _ hi hf hn => unfold View.offset; rw [hi]; rfl
  | plain hi hl => unfold View.offset; rw [hi]

theorem flat_shape (pre : List Int) (d : Int) (suf : List Int) :
    (flat (pre ++ d :: suf))[pre.length * 2]? = some d := by
  induction pre with
  | nil => rfl
  | cons x xs ih =>
    have : (x :: xs).length * 2 = xs.length * 2 + 1 + 1 := by simp only [List.length_cons]; omega
    rw [this, List.cons_append, flat, List.getElem?_cons_succ, List.getElem?_cons_succ]; exact ih

theorem flat_stride (pre : List Int) (d : Int) (suf : List Int) :
    (flat (pre ++ d :: suf))[pre.length * 2 + 1]? = some suf.prod := by
  induction pre with
  | nil => rfl
  | cons x xs ih =>
    have : (x :: xs).length * 2 + 1 = xs.length * 2 + 1 + 1 + 1 := by simp only [List.length_cons]; omega
    rw [this, List.cons_append, flat, List.getElem?_cons_succ, List.getElem?_cons_succ]; exact ih

theorem viewShape_flat (o : Int) (pre : List Int) (d : Int) (suf : List Int) :
    viewShape (o :: flat (pre ++ d :: suf)) pre.length = .ok d := by
  unfold viewShape
  have hl : (o :: flat (pre ++ d :: suf)).length = 2 * pre.length + 2 * suf.length + 3 := by
    simp only [List.length_cons, flat_length, List.length_append]; omega
  simp only []
  rw [if_neg (by rw [hl]; omega)]
  have : ((pre.length : Int) * 2 + 1).toNat = pre.length * 2 + 1 := by omega
  rw [this, ipGet, List.getElem?_cons_succ, flat_shape]

theorem viewStride_flat (o : Int) (pre : List Int) (d : Int) (suf : List Int) :
    viewStride (o :: flat (pre ++ d :: suf)) pre.length = .ok suf.prod := by
  unfold viewStride
  have hl : (o :: flat (pre ++ d :: suf)).length = 2 * pre.length + 2 * suf.length + 3 := by
    simp only [List.length_cons, flat_length, List.length_append]; omega
  simp only []
  rw [if_neg (by rw [hl]; omega)]
  have : ((pre.length : Int) * 2 + 2).toNat = pre.length * 2 + 1 + 1 := by omega
  rw [this, ipGet, List.getElem?_cons_succ, flat_stride]

theorem HasShape.shape {a : Arr α} {o sh} (h : HasShape a o sh) {pre d suf} (e : sh = pre ++ d :: suf) :
    shape a (pre.length : Int) = .ok d := by
  cases h with
  | view _ _ hi hf hn =>
    subst e
    unfold View.shape
    rw [if_neg (by omega), hi]
    exact viewShape_flat ..
  | plain hi hl =>
    cases pre with
    | nil =>
      simp only [List.nil_append, List.cons.injEq] at e
      unfold View.shape View.size
      rw [if_neg (by simp), hi]
      simp [e.1]
    | cons x xs => simp at e

theorem HasShape.stride {a : Arr α} {o sh} (h : HasShape a o sh) {pre d suf} (e : sh = pre ++ d :: suf) :
    stride a (pre.length : Int) = .ok suf.prod := by
  cases h with
  | view _ _ hi hf hn =>
    subst e
    unfold View.stride
    rw [hi]
    exact viewStride_flat ..
  | plain hi hl =>
    cases pre with
    | nil =>
      simp only [List.nil_append, List.cons.injEq] at e
      unfold View.stride
      rw [hi, ← e.2]
      rfl
    | cons x xs => simp at e

theorem HasShape.size {a : Arr α} {o sh} (h : HasShape a o sh) : size a = .ok sh.prod := by
  cases h with
  | view _ _ hi hf hn =>
    cases sh with
    | nil => exact absurd rfl hn
    | cons d ds =>
      have h1 := viewShape_flat o [] d ds
      have h2 := viewStride_flat o [] d ds
      simp only [List.nil_append, List.length_nil] at h1 h2
      unfold View.size
      rw [hi]
      show (viewStride (o :: flat (d :: ds)) 0 >>= _) = _
      rw [show (0 : Int) = ((0 : Nat) : Int) by rfl, h2]
      rw [Outcome.bind_ok, h1]
      show cint _ = _
      have := hf.1
      rw [List.prod_cons] at this ⊢
      rw [mul_comm ds.prod d, cint_ok this]
  | plain hi hl => unfold View.size; rw [hi]; simp

theorem HasShape.bounds_ok {a : Arr α} {o sh} (h : HasShape a o sh) {pre d suf} (e : sh = pre ++ d :: suf)
    {i : Int} (hi : 0 ≤ i ∧ i < d) : bounds a (pre.length : Int) i = .ok () := by
  unfold bounds; rw [h.shape e]; simp only [Outcome.bind_ok]; rw [if_neg (by omega)]

theorem HasShape.bounds_bad {a : Arr α} {o sh} (h : HasShape a o sh) {pre d suf} (e : sh = pre ++ d :: suf)
    {i : Int} (hi : ¬(0 ≤ i ∧ i < d)) :
    bounds a (pre.length : Int) i = .thrown (.error "var::bounds(): index") := by
  unfold bounds; rw [h.shape e]; simp only [Outcome.bind_ok]; rw [if_pos (by omega)]

/-- Room left for the position while indexing. -/
def Room (p s : Int) : Prop := |p| + |s| ≤ 2 ^ 31 ∧ (s = 0 → p = 0)

theorem Room.step {p d s i : Int} (h : Room p (d * s)) (hi : 0 ≤ i ∧ i < d) :
    Room (p + i * s) s ∧ (-2 ^ 31 ≤ p + i * s ∧ p + i * s < 2 ^ 31) ∧ (-2 ^ 31 ≤ i * s ∧ i * s < 2 ^ 31) := by
  obtain ⟨h1, h2⟩ := h
  have hd : 0 < d := by omega
  rw [abs_mul, abs_of_pos hd] at h1
  have h3 : |p + i * s| ≤ |p| + i * |s| := by
    refine (abs_add_le _ _).trans ?_
    rw [abs_mul, abs_of_nonneg hi.1]
  have h4 : (i + 1) * |s| ≤ d * |s| := mul_le_mul_of_nonneg_right (by omega) (abs_nonneg _)
  have h5 : |i * s| = i * |s| := by rw [abs_mul, abs_of_nonneg hi.1]
  have hp := abs_nonneg p
  have e4 : (i + 1) * |s| = i * |s| + |s| := by ring
  rw [e4] at h4
  by_cases hs : s = 0
  · subst hs
    simp only [mul_zero, forall_const] at h2
    subst h2
    simp [Room]
  · have hs' : 0 < |s| := abs_pos.mpr hs
    refine ⟨⟨by linarith, fun h => absurd h hs⟩, ?_, ?_⟩
    · have : |p + i * s| < 2 ^ 31 := by linarith
      rw [abs_lt] at this; exact ⟨by linarith [this.1], this.2⟩
    · have : |i * s| < 2 ^ 31 := by linarith
      rw [abs_lt] at this; exact ⟨by linarith [this.1], this.2⟩

theorem Room.init {s : List Int} (h : Fits s) (hn : s ≠ []) : Room 0 s.prod := by
  cases s with
  | nil => exact absurd rfl hn
  | cons d ds =>
    refine ⟨?_, fun _ => rfl⟩
    have := h.1
    rw [abs_zero, zero_add, abs_le]; omega

theorem HasShape.indexLoop_ok {a : Arr α} {o sh} (h : HasShape a o sh) (pre suf : List Int)
    (e : sh = pre ++ suf) (is ex : List Int) (hi : InRange suf is) (p : Int) (hr : Room p suf.prod) :
    indexLoop a pre.length (is ++ ex) p suf.length = .ok (p + pos suf is) := by
  induction suf generalizing pre is p with
  | nil =>
    cases is with
    | nil => simp [indexLoop, pos]
    | cons => cases hi
  | cons d ds ih =>
    cases is with
    | nil => cases hi
    | cons i is =>
      obtain ⟨h1, h2, h3⟩ := hi
      rw [List.prod_cons] at hr
      obtain ⟨hr', hf, hg⟩ := hr.step ⟨h1, h2⟩
      rw [List.length_cons, List.cons_append, indexLoop]
      simp only [h.bounds_ok e ⟨h1, h2⟩, h.stride e, cint_ok hg, cint_ok hf, Outcome.bind_ok]
      have := ih (pre ++ [d]) (by simp [e]) is h3 _ hr'
      simp only [List.length_append, List.length_singleton] at this
      rw [show ((pre.length : Int) + 1) = ((pre.length + 1 : Nat) : Int) by push_cast; rfl, this, pos]
      congr 1; ring

theorem HasShape.indexLoop_bad {a : Arr α} {o sh} (h : HasShape a o sh) (pre suf : List Int)
    (e : sh = pre ++ suf) (is ex : List Int) (hl : is.length = suf.length) (hi : ¬InRange suf is) (p : Int)
    (hr : Room p suf.prod) :
    indexLoop a pre.length (is ++ ex) p suf.length = .thrown (.error "var::bounds(): index") := by
  induction suf generalizing pre is p with
  | nil =>
    cases is with
    | nil => exact absurd trivial hi
    | cons => simp at hl
  | cons d ds ih =>
    cases is with
    | nil => simp at hl
    | cons i is =>
      rw [List.length_cons, List.cons_append, indexLoop]
      by_cases hb : 0 ≤ i ∧ i < d
      · rw [List.prod_cons] at hr
        obtain ⟨hr', hf, hg⟩ := hr.step hb
        simp only [h.bounds_ok e hb, h.stride e, cint_ok hg, cint_ok hf, Outcome.bind_ok]
        have := ih (pre ++ [d]) (by simp [e]) is (by simpa using hl) (fun hc => hi ⟨hb.1, hb.2, hc⟩) _ hr'
        simp only [List.length_append, List.length_singleton] at this
        rw [show ((pre.length : Int) + 1) = ((pre.length + 1 : Nat) : Int) by push_cast; rfl, this]
      · simp only [h.bounds_bad e hb, Outcome.bind_thrown]

theorem HasShape.index_ok {a : Arr α} {o sh} (h : HasShape a o sh) (i : Int) (is ex : List Int)
    (hi : InRange sh (i :: is)) : index a i (is ++ ex) = .ok (pos sh (i :: is)) := by
  cases sh with
  | nil => cases hi
  | cons d ds =>
    obtain ⟨h1, h2, h3⟩ := hi
    have hr := Room.init h.fits.1 h.fits.2
    rw [List.prod_cons] at hr
    obtain ⟨hr', hf, hg⟩ := hr.step ⟨h1, h2⟩
    have hs := h.stride (pre := []) rfl
    have hb := h.bounds_ok (pre := []) rfl ⟨h1, h2⟩
    have hd := h.dim
    simp only [List.length_nil, List.length_cons, Nat.cast_zero] at hs hb hd
    unfold index
    simp only [hs, hb, cint_ok hg, Outcome.bind_ok, hd, Nat.add_sub_cancel]
    rw [zero_add] at hr'
    have := h.indexLoop_ok [d] ds rfl is ex h3 _ hr'
    simp only [List.length_singleton, Nat.cast_one] at this
    rw [this, pos]

theorem HasShape.index_bad {a : Arr α} {o sh} (h : HasShape a o sh) (i : Int) (is ex : List Int)
    (hl : (i :: is).length = sh.length)
    (hm : -2 ^ 31 ≤ i * sh.tail.prod ∧ i * sh.tail.prod < 2 ^ 31)
    (hi : ¬InRange sh (i :: is)) : index a i (is ++ ex) = .thrown (.error "var::bounds(): index") := by
  cases sh with
  | nil => simp at hl
  | cons d ds =>
    have hs := h.stride (pre := []) rfl
    have hd := h.dim
    simp only [List.length_nil, List.length_cons, Nat.cast_zero] at hs hd
    rw [List.tail_cons] at hm
    unfold index
    simp only [hs, cint_ok hm, Outcome.bind_ok, hd, Nat.add_sub_cancel]
    by_cases hb : 0 ≤ i ∧ i < d
    · have hr := Room.init h.fits.1 h.fits.2
      rw [List.prod_cons] at hr
      obtain ⟨hr', hf, hg⟩ := hr.step hb
      have hbb := h.bounds_ok (pre := []) rfl hb
      simp only [List.length_nil, Nat.cast_zero] at hbb
      simp only [hbb, Outcome.bind_ok]
      rw [zero_add] at hr'
      have := h.indexLoop_bad [d] ds rfl is ex (by simpa using hl) (fun hc => hi ⟨hb.1, hb.2, hc⟩) _ hr'
      simp only [List.length_singleton, Nat.cast_one] at this
      rw [this]
    · have hbb := h.bounds_bad (pre := []) rfl hb
      simp only [List.length_nil, Nat.cast_zero] at hbb
      simp only [hbb, Outcome.bind_thrown]

/-! ### Positions -/

theorem InRange.prod_pos {sh is : List Int} (h : InRange sh is) : 0 < sh.prod := by
  induction sh generalizing is with
  | nil => simp
  | cons d ds ih =>
    cases is with
    | nil => cases h
    | cons i is =>
      rw [List.prod_cons]
      exact mul_pos (by have := h.1; have := h.2.1; omega) (ih h.2.2)

theorem InRange.pos_range {sh is : List Int} (h : InRange sh is) : 0 ≤ pos sh is ∧ pos sh is < sh.prod := by
  induction sh generalizing is with
  | nil =>
    cases is with
    | nil => simp [pos]
    | cons => cases h
  | cons d ds ih =>
    cases is with
    | nil => cases h
    | cons i is =>
      obtain ⟨h1, h2, h3⟩ := h
      obtain ⟨h4, h5⟩ := ih h3
      have hp := InRange.prod_pos h3
      rw [pos, List.prod_cons]
      have h6 : 0 ≤ i * ds.prod := mul_nonneg h1 hp.le
      have h7 : (i + 1) * ds.prod ≤ d * ds.prod := mul_le_mul_of_nonneg_right (by omega) hp.le
      rw [show (i + 1) * ds.prod = i * ds.prod + ds.prod by ring] at h7
      constructor <;> linarith

theorem pos_injective {sh is js : List Int} (h : InRange sh is) (g : InRange sh js)
    (e : pos sh is = pos sh js) : is = js := by
  induction sh generalizing is js with
  | nil => cases is <;> cases js <;> first | rfl | exact h.elim | exact g.elim
  | cons d ds ih =>
    cases is with
    | nil => cases h
    | cons i is =>
      cases js with
      | nil => cases g
      | cons j js =>
        obtain ⟨h1, h2, h3⟩ := h
        obtain ⟨g1, g2, g3⟩ := g
        simp only [pos] at e
        have hp := InRange.prod_pos h3
        have a := InRange.pos_range h3
        have b := InRange.pos_range g3
        have hij : i = j := by
          rcases lt_trichotomy i j with hlt | heq | hgt
          · exfalso
            have : (i + 1) * ds.prod ≤ j * ds.prod := mul_le_mul_of_nonneg_right (by omega) hp.le
            rw [show (i + 1) * ds.prod = i * ds.prod + ds.prod by ring] at this
            linarith
          · exact heq
          · exfalso
            have : (j + 1) * ds.prod ≤ i * ds.prod := mul_le_mul_of_nonneg_right (by omega) hp.le
            rw [show (j + 1) * ds.prod = j * ds.prod + ds.prod by ring] at this
            linarith
        subst hij
        rw [ih h3 g3 (by linarith)]

theorem prod_pos {sh : List Int} (hd : ∀ d ∈ sh, 0 < d) : 0 < sh.prod := by
  induction sh with
  | nil => simp
  | cons d ds ih =>
    rw [List.prod_cons]
    exact mul_pos (hd d (by simp)) (ih fun x hx => hd x (List.mem_cons_of_mem _ hx))

theorem pos_surjective {sh : List Int} (hd : ∀ d ∈ sh, 0 < d) {k : Int} (h0 : 0 ≤ k) (h1 : k < sh.prod) :
    ∃ is, InRange sh is ∧ pos sh is = k := by
  induction sh generalizing k with
  | nil =>
    refine ⟨[], trivial, ?_⟩
    rw [List.prod_nil] at h1
    rw [pos]; omega
    all_goals simp
  | cons d ds ih =>
    have hp : 0 < ds.prod := prod_pos (fun x hx => hd x (List.mem_cons_of_mem _ hx))
    rw [List.prod_cons] at h1
    obtain ⟨is, hi, hk⟩ := ih (fun x hx => hd x (List.mem_cons_of_mem _ hx))
      (Int.emod_nonneg k hp.ne') (Int.emod_lt_of_pos k hp)
    refine ⟨k / ds.prod :: is, ⟨Int.ediv_nonneg h0 hp.le, (Int.ediv_lt_iff_lt_mul hp).mpr h1, hi⟩, ?_⟩
    rw [pos, hk, mul_comm]
    exact Int.mul_ediv_add_emod k ds.prod

theorem InRange.append {s t is js : List Int} (h : InRange s is) (g : InRange t js) :
    InRange (s ++ t) (is ++ js) ∧ pos (s ++ t) (is ++ js) = pos s is * t.prod + pos t js := by
  induction s generalizing is with
  | nil =>
    cases is with
    | nil => exact ⟨g, by simp [pos]⟩
    | cons => cases h
  | cons d ds ih =>
    cases is with
    | nil => cases h
    | cons i is =>
      obtain ⟨h1, h2, h3⟩ := h
      obtain ⟨a, b⟩ := ih h3
      refine ⟨⟨h1, h2, a⟩, ?_⟩
      simp only [List.cons_append, pos, b, List.prod_append]; ring

/-! ### Making views -/

theorem view_shape {a : Arr α} {sh : List Int} {off : Int} {v : Arr α} (h : view a sh off = .ok v) :
    ∃ b, offset a = .ok b ∧ v.data = a.data ∧ HasShape v (b + off) sh ∧ sh.prod + (b + off) ≤ a.data.length ∧
      -2 ^ 31 ≤ b + off := by
  unfold view baseOffset at h
  cases hb : offset a with
  | ok b =>
    rw [hb] at h
    simp only [Outcome.bind_ok] at h
    rw [mkView_eq] at h
    by_cases hc : -2 ^ 31 ≤ b + off ∧ b + off < 2 ^ 31
    · rw [cint_ok hc] at h
      simp only [Outcome.bind] at h
      by_cases hn : sh = []
      · rw [if_pos hn] at h; cases h
      · rw [if_neg hn] at h
        by_cases hf : Fits sh
        · rw [if_pos hf] at h
          by_cases hq : -2 ^ 31 ≤ sh.prod + (b + off) ∧ sh.prod + (b + off) < 2 ^ 31
          · rw [cint_ok hq] at h
            simp only [] at h
            by_cases hg : sh.prod + (b + off) > (a.data.length : Int)
            · rw [if_pos hg] at h; cases h
            · rw [if_neg hg] at h
              cases h
              exact ⟨b, rfl, rfl, .view _ _ rfl hf hn, by omega, hc.1⟩
          · rw [cint_bad hq] at h; cases h
        · rw [if_neg hf] at h; cases h
    · rw [cint_bad hc] at h; cases h
  | thrown e => rw [hb] at h; cases h
  | ub e => rw [hb] at h; cases h
  | abort => rw [hb] at h; cases h
  | diverge => rw [hb] at h; cases h

theorem view_ip {a : Arr α} {sh : List Int} {off : Int} {v : Arr α} (h : view a sh off = .ok v) :
    ∃ ip, v.ip = some ip := by
  unfold view at h
  cases hb : baseOffset a with
  | ok b =>
    rw [hb] at h
    simp only [Outcome.bind_ok] at h
    cases hm : mkView a.data.length b sh off with
    | ok ip => rw [hm] at h; cases h; exact ⟨_, rfl⟩
    | thrown e => rw [hm] at h; cases h
    | ub e => rw [hm] at h; cases h
    | abort => rw [hm] at h; cases h
    | diverge => rw [hm] at h; cases h
  | thrown e => rw [hb] at h; cases h
  | ub e => rw [hb] at h; cases h
  | abort => rw [hb] at h; cases h
  | diverge => rw [hb] at h; cases h

theorem view_make {a : Arr α} {sh : List Int} {off b : Int} (hb : offset a = .ok b)
    (hc : -2 ^ 31 ≤ b + off) (hn : sh ≠ []) (hf : Fits sh) (hl : (a.data.length : Int) < 2 ^ 31)
    (h0 : 0 ≤ sh.prod)
    (hs : sh.prod + (b + off) ≤ a.data.length) :
    view a sh off = .ok ⟨a.data, some ((b + off) :: flat sh)⟩ := by
  unfold view baseOffset
  rw [hb]
  simp only [Outcome.bind_ok]
  rw [mkView_eq, cint_ok ⟨hc, by omega⟩]
  simp only [Outcome.bind]
  rw [if_neg hn, if_pos hf, cint_ok ⟨by omega, by omega⟩]
  simp only []
  rw [if_neg (by omega)]
  rfl

theorem load_inside {data : List α} {i : Int} (h0 : 0 ≤ i) (h1 : i < data.length) :
    ∃ x, data[i.toNat]? = some x ∧ load data i = .ok x := by
  have h : i.toNat < data.length := by omega
  refine ⟨data[i.toNat], List.getElem?_eq_getElem h, ?_⟩
  unfold load
  rw [if_neg (by omega), List.getElem?_eq_getElem h]

theorem HasShape.get_eq {a : Arr α} {o sh} (h : HasShape a o sh) (ho : -2 ^ 31 ≤ o)
    (hs : sh.prod + o < 2 ^ 31) (i : Int) (is ex : List Int)
    (hi : InRange sh (i :: is)) : get a i (is ++ ex) = load a.data (o + pos sh (i :: is)) := by
  unfold get locate
  simp only [h.index_ok i is ex hi, h.offset, Outcome.bind_ok]
  have := InRange.pos_range hi
  rw [cint_ok (by omega)]
  simp only [Outcome.bind_ok]
  rw [add_comm]

theorem HasShape.ip {a : Arr α} {o sh} (h : HasShape a o sh) {ip} (hi : a.ip = some ip) :
    a.ip = some (o :: flat sh) := by
  cases h with
  | view _ _ hi hf hn => exact hi
  | plain hp => rw [hi] at hp; cases hp

theorem HasShape.shapeLoop {a : Arr α} {o sh} (h : HasShape a o sh) (pre suf : List Int)
    (e : sh = pre ++ suf) : shapeLoop a pre.length suf.length = .ok suf := by
  induction suf generalizing pre with
  | nil => rfl
  | cons d ds ih =>
    rw [List.length_cons, View.shapeLoop]
    have := ih (pre ++ [d]) (by simp [e])
    simp only [List.length_append, List.length_singleton] at this
    simp only [h.shape e, Outcome.bind_ok]
    rw [show ((pre.length : Int) + 1) = ((pre.length + 1 : Nat) : Int) by push_cast; rfl, this]
    rfl

theorem HasShape.subview {a : Arr α} {o sh} (h : HasShape a o sh) (d : Nat) (hd : 1 ≤ d) (off : Int) :
    subview a d off = View.view a (sh.drop (sh.length - d)) off := by
  unfold View.subview
  rw [if_neg (by omega), h.dim]
  have := h.shapeLoop [] sh rfl
  simp only [List.length_nil, Nat.cast_zero] at this
  rw [this]
  simp only [Outcome.bind_ok]
  congr 2
  omega

end Libube.View

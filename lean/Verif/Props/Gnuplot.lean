import Verif.Spec.Gnuplot
import Verif.Props.Arith
import Verif.Lemmas.JsonNum
import Mathlib.Data.List.TakeWhile

/-! # Plotting with gnuplot (C128, C129) -/

namespace Libube.GnuplotProps

open View ViewSpec Arith ArithSpec Gnuplot GnuplotSpec CString

theorem puts_plain {s : Bytes} (h : Plain s) : puts s = s ++ [10] := by
  unfold puts cstr
  rw [List.takeWhile_eq_self_iff.2 (fun c hc => by simpa using h c hc)]

theorem Plain.append {s t : Bytes} (h : Plain s) (g : Plain t) : Plain (s ++ t) := fun c hc => (List.mem_append.1 hc).elim (h c) (g c)

theorem shows_arr {sh : α → Bytes} {m : Mem α} {b : Ref} {t : Bytes} (h : Shows sh m (.arr b) t) : ∃ o s, IsArr m b o s := by
  cases h with
  | vector _ o xs _ h => exact ⟨_, _, h⟩
  | matrix _ o r cols _ h => exact ⟨_, _, h⟩

/-- An array that is not of the type and shape of a view is not copied. -/
theorem assign_apart {m : Mem α} {v b : Ref} {ov ob : Nat} {sh sh' : List Int} (hv : IsArr m v ov sh) (hb : IsArr m b ob sh')
    (hi : v.ip ≠ none) (hc : ¬ Clash m (.arr v) (.arr b)) : assignView v b m = .ok (b, m) := by
  have hf : copyable m v b = .ok false := by
    by_cases hk : v.kind = b.kind
    · by_cases hd : sh.length = sh'.length
      · rw [copyable_eq hv hb hk hd]
        have : ¬ (if sh.length = 1 then sh.prod = sh'.prod else sh = sh') := by
          intro h
          refine hc ⟨v, b, ov, ob, sh, rfl, rfl, hi, hk, hv, ?_⟩
          split at h
          · rename_i h1
            obtain ⟨x, rfl⟩ := List.length_eq_one_iff.1 h1
            obtain ⟨y, rfl⟩ := List.length_eq_one_iff.1 (hd ▸ h1)
            simp only [List.prod_cons, List.prod_nil, Int.mul_one] at h
            exact h ▸ hb
          · exact h ▸ hb
        rw [decide_eq_false this]
      · obtain ⟨dV, hV, eV, sV, _, _⟩ := hv.shape
        obtain ⟨dB, hB, eB, sB, _, _⟩ := hb.shape
        unfold copyable
        rw [eV, eB]
        simp only [Outcome.bind_ok]
        rw [if_neg (by simp [hk]), if_pos (by rw [sV.dim, sB.dim]; exact hd)]
    · obtain ⟨dV, hV, eV, sV, _, _⟩ := hv.shape
      obtain ⟨dB, hB, eB, sB, _, _⟩ := hb.shape
      unfold copyable
      rw [eV, eB]
      simp only [Outcome.bind_ok]
      rw [if_pos hk]
  unfold assignView
  rw [hf]
  rfl

theorem load_at {m : Mem α} {h p : Nat} {d : List α} {x : α} (hd : m[h]? = some d) (hx : At m h p x) : load d (p : Int) = .ok x := by
  obtain ⟨D, h1, h2⟩ := hx
  rw [hd] at h1
  cases h1
  unfold load
  simp [h2]

theorem locate_at {A : Arr α} {o j : Nat} (ho : offset A = .ok (o : Int)) (hl : ((o + j : Nat) : Int) < 2 ^ 31) : locate A (j : Int) = .ok ((o + j : Nat) : Int) := by
  have h : -2 ^ 31 ≤ ((o + j : Nat) : Int) := by omega
  unfold locate
  rw [ho, Outcome.bind_ok, ← cint_ok ⟨h, hl⟩, Nat.cast_add, Int.add_comm]

theorem vector_text {sh : α → Bytes} (hp : ∀ x, Plain (sh x)) {A : Arr α} {o : Nat} (ho : offset A = .ok (o : Int)) :
    ∀ (xs : List α) (j : Nat), (∀ (k : Nat) (x : α), xs[k]? = some x → load A.data ((o + (j + k) : Nat) : Int) = .ok x) → ((o + (j + xs.length) : Nat) : Int) < 2 ^ 31 →
      Gnuplot.vector sh A j xs.length = .ok (xs.flatMap fun x => sh x ++ [10]) := by
  intro xs
  induction xs with
  | nil => intro _ _ _; rfl
  | cons x xs ih =>
    intro j h hl
    have h0 := h 0 x rfl
    rw [List.length_cons] at hl
    have ih := ih (j + 1) (fun k y hk => by have := h (k + 1) y hk; rwa [show j + (k + 1) = j + 1 + k by omega] at this) (by omega)
    rw [Nat.cast_succ j] at ih
    have hloc := locate_at (A := A) (j := j) ho (by omega)
    rw [Nat.add_zero] at h0
    rw [List.length_cons, Gnuplot.vector, hloc, Outcome.bind_ok, h0, Outcome.bind_ok, ih, Outcome.bind_ok, puts_plain (hp x), List.flatMap_cons]

theorem column_text {sh : α → Bytes} {A : Arr α} {j : Int} :
    ∀ (xs : List α) (i : Nat), (∀ (k : Nat) (x : α), xs[k]? = some x → View.get A ((i + k : Nat) : Int) [j] = .ok x) →
      column sh A j i xs.length = .ok (xs.flatMap fun x => 32 :: sh x)
  | [], _, _ => rfl
  | x :: xs, i, h => by
    have h0 := h 0 x rfl
    have ih := column_text (sh := sh) (A := A) (j := j) xs (i + 1) (fun k y hk => by have := h (k + 1) y hk; rwa [show i + (k + 1) = i + 1 + k by omega] at this)
    rw [Nat.cast_succ i] at ih
    rw [List.length_cons, column]
    rw [Nat.add_zero] at h0
    rw [h0, Outcome.bind_ok, ih, Outcome.bind_ok]
    rfl

theorem columns_text {sh : α → Bytes} {A : Arr α} {r : Nat} :
    ∀ (cols : List (List α)) (j : Nat), (∀ (k : Nat) (c : List α), cols[k]? = some c → c.length = r ∧ ∀ (i : Nat) (x : α), c[i]? = some x → View.get A (i : Int) [((j + k : Nat) : Int)] = .ok x) →
      columns sh A r j cols.length = .ok (cols.flatMap fun c => c.flatMap (fun x => 32 :: sh x) ++ [10])
  | [], _, _ => rfl
  | c :: cols, j, h => by
    obtain ⟨h0, h1⟩ := h 0 c rfl
    have ih := columns_text (sh := sh) (A := A) (r := r) cols (j + 1) (fun k y hk => by have := h (k + 1) y hk; rwa [show j + (k + 1) = j + 1 + k by omega] at this)
    rw [Nat.cast_succ j] at ih
    rw [Nat.add_zero] at h1
    have hc := column_text (sh := sh) (A := A) (j := (j : Int)) c 0 (fun k x hk => by rw [Nat.zero_add]; exact h1 k x hk)
    rw [h0, Nat.cast_zero] at hc
    rw [List.length_cons, columns, Int.toNat_natCast, hc, Outcome.bind_ok, ih, Outcome.bind_ok]
    simp

theorem plotArr_text {sh : α → Bytes} (hp : ∀ x, Plain (sh x)) {m : Mem α} {b : Ref} {t : Bytes} (h : Shows sh m (.arr b) t) : plotArr sh b m = .ok t := by
  cases h with
  | vector _ o xs hr ha hx =>
    obtain ⟨d, hd, he, hs, hl, hlen⟩ := ha.shape
    have hdim := hs.dim
    have hv := vector_text hp (A := ⟨d, b.ip⟩) hs.offset xs 0 (fun k x hk => by rw [Nat.zero_add]; exact load_at hd (hx k x hk)) (by simp only [List.prod_cons, List.prod_nil, Int.mul_one] at hlen; omega)
    have hsize := hs.size
    simp only [List.prod_cons, List.prod_nil, Int.mul_one] at hsize
    unfold plotArr
    rw [Nat.cast_zero] at hv
    have hb : ∀ s : Bytes, puts s = cstr s ++ [10] := fun _ => rfl
    rcases hr with hr | hr | hr | hr <;> rw [hr] <;> simp only [he, Outcome.bind_ok] <;> rw [if_pos (by rw [hdim]; simp)] <;> rw [hsize] <;> simp only [Outcome.bind_ok, Int.toNat_natCast] <;> rw [hv] <;> rfl
  | matrix _ o r cols hr ha hx =>
    obtain ⟨d, hd, he, hs, hl, hlen⟩ := ha.shape
    have hdim := hs.dim
    have s0 := hs.shape (pre := []) rfl
    have s1 := hs.shape (pre := [(r : Int)]) rfl
    simp only [List.length_cons, List.length_nil, Nat.zero_add, Nat.cast_one, Nat.cast_zero] at hdim s0 s1
    have hv := columns_text (sh := sh) (A := ⟨d, b.ip⟩) (r := r) cols 0 (fun k c hk => by
      obtain ⟨h1, h2⟩ := hx k c hk
      refine ⟨h1, fun i x hi => ?_⟩
      have hk' := (List.getElem?_eq_some_iff.1 hk).1
      have hi' := (List.getElem?_eq_some_iff.1 hi).1
      have e := hs.get_eq (by omega) (by omega) i [((0 + k : Nat) : Int)] [] ⟨by omega, by omega, by omega, by omega, trivial⟩
      rw [List.append_nil] at e
      rw [e]
      have := load_at hd (h2 i x hi)
      rw [← this]
      congr 1
      simp [pos])
    rw [Nat.cast_zero] at hv
    have hpl : Plain (cols.flatMap fun c => c.flatMap (fun x => 32 :: sh x) ++ [10]) := by
      intro c hc
      simp only [List.mem_flatMap, List.mem_append, List.mem_cons, List.not_mem_nil, or_false] at hc
      obtain ⟨_, _, ⟨x, _, rfl | hc⟩ | rfl⟩ := hc
      · decide
      · exact hp x c hc
      · decide
    unfold plotArr
    rcases hr with hr | hr | hr | hr <;> rw [hr] <;> simp only [he, Outcome.bind_ok, hdim] <;> rw [if_neg (by omega), if_pos trivial, s0, s1] <;> simp only [Outcome.bind_ok, Int.toNat_natCast] <;> rw [hv] <;> simp only [Outcome.bind_ok] <;> rw [puts_plain hpl] <;> rfl

theorem assign_ok {m : Mem α} {line : Option Ref} {b : Ref} {ob : Nat} {sb : List Int} (hb : IsArr m b ob sb) {xs : List (Item α)}
    (hl : ∀ v, line = some v → (∃ o s, IsArr m v o s) ∧ ∀ y ∈ (.arr b :: xs).head?, ¬ Clash m (.arr v) y) : assign line (.arr b) m = .ok (some b, m) := by
  cases line with
  | none => rfl
  | some v =>
    obtain ⟨⟨ov, sv, hv⟩, hcl⟩ := hl v rfl
    unfold assign
    cases hi : v.ip with
    | none => simp only [hi]
    | some ip =>
      simp only [hi]
      rw [assign_apart hv hb (by rw [hi]; simp) (hcl _ rfl)]
      rfl

theorem items_text {sh : α → Bytes} (hp : ∀ x, Plain (sh x)) {m : Mem α} :
    ∀ (xs : List (Item α)) (ts : List Bytes) (line : Option Ref), List.Forall₂ (Shows sh m) xs ts → List.IsChain (fun x y => ¬ Clash m x y) xs →
      (∀ v, line = some v → (∃ o s, IsArr m v o s) ∧ ∀ y ∈ xs.head?, ¬ Clash m (.arr v) y) → items sh line xs m = .ok (ts.flatten, m) := by
  intro xs ts line h hc hl
  induction h generalizing line with
  | nil => rfl
  | @cons x t xs ts hx _ ih =>
    have hc' := hc.tail
    have hn : ∀ y ∈ xs.head?, ¬ Clash m x y := by
      intro y hy
      cases xs with
      | nil => simp at hy
      | cons z zs =>
        simp only [List.head?_cons, Option.mem_def, Option.some.injEq] at hy
        subst hy
        exact (List.isChain_cons_cons.1 hc).1
    unfold items
    cases x with
    | cmd s =>
      cases hx with
      | cmd _ hs =>
        have ih := ih none hc' (fun v h => by cases h)
        simp [assign, plot, ih, puts_plain hs]
    | num x =>
      cases hx
      have ih := ih none hc' (fun v h => by cases h)
      simp [assign, plot, ih, puts_plain (hp x)]
      rfl
    | chr c => cases hx
    | other => cases hx
    | arr b =>
      have hb := shows_arr hx
      have ih := ih (some b) hc' (fun v h => by cases h; exact ⟨hb, hn⟩)
      have ha : assign line (.arr b) m = .ok (some b, m) := by
        obtain ⟨ob, sb, hb⟩ := hb
        exact assign_ok hb hl
      simp only [ha, Outcome.bind_ok, plot]
      rw [plotArr_text hp hx, Outcome.bind_ok, ih]
      rfl

/-! ## Theorems -/

/-- What is written to gnuplot before the items. -/
def header (file : Val) : Bytes := if file.defined then puts term ++ puts (output ++ Json.format 0 file) else []

-- `set term post eps`, `set output "a"`
example : header .nil = [] ∧ header (.chars [97]) = [115, 101, 116, 32, 116, 101, 114, 109, 32, 112, 111, 115, 116, 32, 101, 112, 115, 10,
    115, 101, 116, 32, 111, 117, 116, 112, 117, 116, 32, 34, 97, 34, 10] := by decide

/-- C128, C129: if no array in the list comes directly after a view of the same type and shape, gnuplot receives the text of each item in order, and the data is left as it is.
    Missing: lists where that is so (`plot_overwrites`, `plot_int_throws`, `plot_one_undefined`), single characters, of which nothing is written (`plot_string_blank`), and what is refused
    (`plot_refuses`). -/
theorem plot_text_partial {sh : α → Bytes} (hp : ∀ x, Plain (sh x)) (file : Val) (m : Mem α) (xs : List (Item α)) (ts : List Bytes) (h : List.Forall₂ (Shows sh m) xs ts)
    (hc : List.IsChain (fun x y => ¬ Clash m x y) xs) : write sh file xs m = .ok (header file ++ ts.flatten, m) := by
  unfold write
  rw [items_text hp xs ts none h hc (fun v h => by cases h)]
  rfl

theorem isArr_unique {m : Mem α} {a : Ref} {o o' : Nat} {sh sh' : List Int} (h : IsArr m a o sh) (h' : IsArr m a o' sh') : o = o' ∧ sh = sh' := by
  obtain ⟨d, hd, he, hs, -, -⟩ := h.shape
  obtain ⟨d', hd', he', hs', -, -⟩ := h'.shape
  rw [hd] at hd'
  cases hd'
  have h1 := hs.offset
  rw [hs'.offset] at h1
  have h2 : shapeLoop (⟨d, a.ip⟩ : Arr α) 0 sh.length = .ok sh := hs.shapeLoop [] _ rfl
  have h3 : shapeLoop (⟨d, a.ip⟩ : Arr α) 0 sh'.length = .ok sh' := hs'.shapeLoop [] _ rfl
  have h4 : sh.length = sh'.length := by rw [← hs.dim, ← hs'.dim]
  rw [h4, h3] at h2
  cases h1
  cases h2
  exact ⟨rfl, rfl⟩

/-- Two 2 x 3 matrices, and a vector of two. -/
def data : Mem Int := [[1, 2, 3, 4, 5, 6], [10, 20, 30, 40, 50, 60], [7, 8]]
def one : Ref := ⟨.float, 0, some [0, 2, 3, 3, 1]⟩
def two : Ref := ⟨.float, 1, some [0, 2, 3, 3, 1]⟩
def pair : Ref := ⟨.float, 2, none⟩

theorem one_isArr : IsArr data one 0 [2, 3] := .view [1, 2, 3, 4, 5, 6] rfl (by decide) 0 [2, 3] (by decide)
theorem two_isArr : IsArr data two 0 [2, 3] := .view [10, 20, 30, 40, 50, 60] rfl (by decide) 0 [2, 3] (by decide)
theorem pair_isArr : IsArr data pair 0 [2] := .plain [7, 8] rfl (by decide) rfl

theorem showInt_plain (i : Int) : Plain (showInt i) := by
  intro c hc
  have := Json.showInt_chars i c hc
  rintro rfl
  revert this
  decide

theorem at_of {m : Mem α} {h : Nat} {d xs : List α} (hd : m[h]? = some d) {o : Nat} (he : d.drop o = xs) (j : Nat) (x : α) (hj : xs[j]? = some x) : At m h (o + j) x :=
  ⟨d, hd, by rw [← he, List.getElem?_drop] at hj; exact hj⟩

theorem one_shows : Shows showInt data (.arr one) ([[1, 4], [2, 5], [3, 6]].flatMap (fun c => c.flatMap (fun x => 32 :: showInt x) ++ [10]) ++ [10] ++ [101, 10]) := by
  refine .matrix one 0 2 [[1, 4], [2, 5], [3, 6]] (.inr (.inr (.inl rfl))) one_isArr ?_
  intro j c hj
  match j, hj with
  | 0, hj => cases hj; exact ⟨rfl, fun i x hi => match i, hi with | 0, hi => ⟨_, rfl, hi⟩ | 1, hi => ⟨_, rfl, hi⟩⟩
  | 1, hj => cases hj; exact ⟨rfl, fun i x hi => match i, hi with | 0, hi => ⟨_, rfl, hi⟩ | 1, hi => ⟨_, rfl, hi⟩⟩
  | 2, hj => cases hj; exact ⟨rfl, fun i x hi => match i, hi with | 0, hi => ⟨_, rfl, hi⟩ | 1, hi => ⟨_, rfl, hi⟩⟩

theorem pair_shows : Shows showInt data (.arr pair) ([7, 8].flatMap (fun x => showInt x ++ [10]) ++ [101, 10]) :=
  .vector pair 0 [7, 8] (.inr (.inr (.inl rfl))) pair_isArr (at_of (d := [7, 8]) rfl rfl)

-- `plot`, a matrix, a vector, a number
example : List.Forall₂ (Shows showInt data) [.cmd [112, 108, 111, 116], .arr one, .arr pair, .num 5]
      [[112, 108, 111, 116] ++ [10], [[1, 4], [2, 5], [3, 6]].flatMap (fun c => c.flatMap (fun x => 32 :: showInt x) ++ [10]) ++ [10] ++ [101, 10], [7, 8].flatMap (fun x => showInt x ++ [10]) ++ [101, 10],
        showInt 5 ++ [10] ++ [101, 10]] ∧
    List.IsChain (fun x y => ¬ Clash data x y) [.cmd [112, 108, 111, 116], .arr one, .arr pair, .num 5] ∧
    write showInt .nil [.cmd [112, 108, 111, 116], .arr one, .arr pair, .num 5] data = .ok ([112, 108, 111, 116, 10,
      32, 49, 32, 52, 10, 32, 50, 32, 53, 10, 32, 51, 32, 54, 10, 10, 101, 10, 55, 10, 56, 10, 101, 10, 53, 10, 101, 10], data) := by
  refine ⟨.cons (.cmd _ (by unfold Plain; decide)) (.cons one_shows (.cons pair_shows (.cons (.num 5) .nil))), ?_, rfl⟩
  simp only [List.isChain_cons_cons, List.IsChain.singleton, and_true]
  refine ⟨?_, ?_, ?_⟩
  · rintro ⟨v, b, ov, ob, s, h, -⟩; cases h
  · rintro ⟨v, b, ov, ob, s, h1, h2, -, -, h3, h4⟩
    cases h1
    cases h2
    have := (isArr_unique one_isArr h3).2.trans (isArr_unique pair_isArr h4).2.symm
    simp at this
  · rintro ⟨v, b, ov, ob, s, -, h, -⟩; cases h

theorem isArr_updated {m m' : Mem α} {a : Ref} {o : Nat} {sh : List Int} (h : IsArr m a o sh) {D' : List α} (hl : ∀ d, m[a.heap]? = some d → D'.length = d.length) (hd : m'[a.heap]? = some D') :
    IsArr m' a o sh := by
  cases h with
  | plain d h1 h2 h3 =>
    have e := hl d h1
    have h2 : (D'.length : Int) < 2 ^ 31 := lt_of_eq_of_lt (congrArg Nat.cast e) h2
    have := IsArr.plain (a := a) D' hd h2 h3
    rwa [e] at this
  | view d h1 h2 o sh h3 =>
    refine .view D' hd (lt_of_eq_of_lt (congrArg Nat.cast (hl d h1)) h2) o sh ?_
    have key : ∀ e : List α, View.view ⟨e, none⟩ sh o = (mkView e.length 0 sh o >>= fun ip => Outcome.ok ⟨e, some ip⟩) := by
      intro e
      unfold View.view
      rw [show baseOffset (⟨e, none⟩ : Arr α) = .ok 0 from rfl, Outcome.bind_ok]
    rw [key] at h3 ⊢
    rw [hl d h1]
    generalize mkView d.length 0 sh o = r at h3 ⊢
    cases r with
    | ok ip =>
      have h3 : (⟨d, some ip⟩ : Arr α) = ⟨d, a.ip⟩ := by injection h3
      have h4 : some ip = a.ip := congrArg Arr.ip h3
      rw [← h4]
      rfl
    | _ => cases h3

/-- C128 is false: if an array comes directly after a view of the same type and shape, for instance one matrix after the other, the elements of the view are replaced by those of the array.  (What gnuplot receives
    is right nevertheless.) -/
theorem plot_overwrites {sh : α → Bytes} (hp : ∀ x, Plain (sh x)) (file : Val) (m : Mem α) (v b : Ref) (ov ob s : Nat) (shape : List Int) (hv : IsArr m v ov shape) (hb : IsArr m b ob shape)
    (hi : v.ip ≠ none) (hk : v.kind = b.kind) (hkv : v.kind = .float ∨ v.kind = .double) (hs : shape.prod = s) (hs0 : 0 < s) (hone : shape ≠ [1]) (hd : v.heap ≠ b.heap)
    (t u : Bytes) (ht : Shows sh m (.arr v) t) (hu : Shows sh m (.arr b) u) (y : Nat → α) (hy : ∀ j, j < s → At m b.heap (ob + j) (y j)) :
    ∃ m', write sh file [.arr v, .arr b] m = .ok (header file ++ (t ++ u), m') ∧ Updated m m' v.heap ov s y := by
  obtain ⟨m', e, hup⟩ := assign_view_partial m v b ov ob s shape hv hb hs hs0 hone hk hkv (.inl hd) y hy
  refine ⟨m', ?_, hup⟩
  have hat : ∀ j x, j < s → At m b.heap (ob + j) x → At m' v.heap (ov + j) x := by
    intro j x hj hx
    obtain ⟨-, D, D', g1, g2, g3, g4, -⟩ := hup
    obtain ⟨E, e1, e2⟩ := hx
    obtain ⟨E', e1', e2'⟩ := hy j hj
    rw [e1] at e1'; cases e1'
    rw [e2] at e2'; cases e2'
    exact ⟨D', g2, g4 j hj⟩
  have hv' : IsArr m' v ov shape := by
    obtain ⟨-, D, D', g1, g2, g3, g4, -⟩ := hup
    exact isArr_updated hv (fun d hd => by rw [g1] at hd; cases hd; exact g3) g2
  have hu' : Shows sh m' (.arr v) u := by
    cases hu with
    | vector _ o xs hr ha hx =>
      obtain ⟨rfl, rfl⟩ := isArr_unique ha hb
      have : xs.length = s := by simpa using hs
      exact .vector v ov xs (hk ▸ hr) hv' fun j x hj => hat j x (by have := (List.getElem?_eq_some_iff.1 hj).1; omega) (hx j x hj)
    | matrix _ o r cols hr ha hx =>
      obtain ⟨rfl, rfl⟩ := isArr_unique ha hb
      have hrs : r * cols.length = s := by
        have : ((r * cols.length : Nat) : Int) = s := by simpa using hs
        exact_mod_cast this
      refine .matrix v ov r cols (hk ▸ hr) hv' fun j c hj => ⟨(hx j c hj).1, fun i x hi => hat _ x ?_ ((hx j c hj).2 i x hi)⟩
      have h1 := (List.getElem?_eq_some_iff.1 hj).1
      have h2 := (List.getElem?_eq_some_iff.1 hi).1
      rw [(hx j c hj).1] at h2
      have := Nat.mul_le_mul_right cols.length (show i + 1 ≤ r by omega)
      rw [Nat.succ_mul] at this
      omega
  obtain ⟨ip, hip⟩ := Option.ne_none_iff_exists'.1 hi
  unfold write items items items
  have ha : assign (some v) (.arr b) m = .ok (some v, m') := by
    unfold assign
    simp only [hip, e]
    rfl
  have h0 : assign none (.arr v) m = .ok (some v, m) := rfl
  simp only [h0, Outcome.bind_ok, plot, plotArr_text hp ht, ha, plotArr_text hp hu', List.append_nil]
  rfl

theorem two_shows : Shows showInt data (.arr two) ([[10, 40], [20, 50], [30, 60]].flatMap (fun c => c.flatMap (fun x => 32 :: showInt x) ++ [10]) ++ [10] ++ [101, 10]) := by
  refine .matrix two 0 2 [[10, 40], [20, 50], [30, 60]] (.inr (.inr (.inl rfl))) two_isArr ?_
  intro j c hj
  match j, hj with
  | 0, hj => cases hj; exact ⟨rfl, fun i x hi => match i, hi with | 0, hi => ⟨_, rfl, hi⟩ | 1, hi => ⟨_, rfl, hi⟩⟩
  | 1, hj => cases hj; exact ⟨rfl, fun i x hi => match i, hi with | 0, hi => ⟨_, rfl, hi⟩ | 1, hi => ⟨_, rfl, hi⟩⟩
  | 2, hj => cases hj; exact ⟨rfl, fun i x hi => match i, hi with | 0, hi => ⟨_, rfl, hi⟩ | 1, hi => ⟨_, rfl, hi⟩⟩

-- the first matrix is lost
example : IsArr data one 0 [2, 3] ∧ IsArr data two 0 [2, 3] ∧ (∃ t, Shows showInt data (.arr one) t) ∧ (∃ u, Shows showInt data (.arr two) u) ∧
    (∀ j, j < 6 → At data two.heap (0 + j) (10 * j + 10 : Int)) ∧
    ∃ out, write showInt .nil [.arr one, .arr two] data = .ok (out, [[10, 20, 30, 40, 50, 60], [10, 20, 30, 40, 50, 60], [7, 8]]) := by
  refine ⟨one_isArr, two_isArr, ⟨_, one_shows⟩, ⟨_, two_shows⟩, ?_, _, rfl⟩
  intro j hj
  refine ⟨_, rfl, ?_⟩
  match j, hj with
  | 0, _ => rfl
  | 1, _ => rfl
  | 2, _ => rfl
  | 3, _ => rfl
  | 4, _ => rfl
  | 5, _ => rfl

/-- For views of integers the same makes `write` throw. -/
theorem plot_int_throws {sh : α → Bytes} (hp : ∀ x, Plain (sh x)) (file : Val) (m : Mem α) (v b : Ref) (ov ob s : Nat) (shape : List Int) (hv : IsArr m v ov shape) (hb : IsArr m b ob shape)
    (hi : v.ip ≠ none) (hk : v.kind = b.kind) (hkv : v.kind = .int ∨ v.kind = .long) (hs : shape.prod = s) (hs0 : 0 < s) (hone : shape ≠ [1]) (t : Bytes) (ht : Shows sh m (.arr v) t)
    (ys : List (Item α)) : ∃ e, write sh file (.arr v :: .arr b :: ys) m = .thrown (.error e) := by
  obtain ⟨e, he⟩ := assign_int_view_throws m v b ov ob s shape hv hb hs hs0 hone hk (by rcases hkv with h | h <;> rw [h] <;> simp) (by rcases hkv with h | h <;> rw [h] <;> simp)
  obtain ⟨ip, hip⟩ := Option.ne_none_iff_exists'.1 hi
  refine ⟨e, ?_⟩
  have ha : assign (some v) (.arr b) m = .thrown (.error e) := by
    unfold assign
    simp only [hip, he]
    rfl
  have h0 : assign none (.arr v) m = .ok (some v, m) := rfl
  unfold write items items
  simp only [h0, Outcome.bind_ok, plot, plotArr_text hp ht, ha]
  rfl

example : write showInt .nil [.arr { one with kind := .int }, .arr { two with kind := .int }] data = .thrown (.error "Set::vector: Unknown type") := rfl

/-- For views of one element the same is undefined. -/
theorem plot_one_undefined {sh : α → Bytes} (hp : ∀ x, Plain (sh x)) (file : Val) (m : Mem α) (v b : Ref) (ov ob : Nat) (hv : IsArr m v ov [1]) (hb : IsArr m b ob [1])
    (hi : v.ip ≠ none) (hk : v.kind = b.kind) (hc : v.kind ≠ .cdouble) (t : Bytes) (ht : Shows sh m (.arr v) t) (ys : List (Item α)) :
    write sh file (.arr v :: .arr b :: ys) m = .ub .typePun := by
  have he := assign_one_element_undefined m v b ov ob hv hb hk hc
  obtain ⟨ip, hip⟩ := Option.ne_none_iff_exists'.1 hi
  have ha : assign (some v) (.arr b) m = .ub .typePun := by
    unfold assign
    simp only [hip, he]
    rfl
  have h0 : assign none (.arr v) m = .ok (some v, m) := rfl
  unfold write items items
  simp only [h0, Outcome.bind_ok, plot, plotArr_text hp ht, ha]
  rfl

example : write showInt .nil [.arr ⟨.float, 0, some [0, 1, 1]⟩, .arr ⟨.float, 1, some [2, 1, 1]⟩] data = .ub .typePun := rfl

/-- C129 is false for a single string in place of a list of commands: gnuplot receives an empty line for each character. -/
theorem plot_string_blank (sh : α → Bytes) (m : Mem α) (s : Bytes) : write sh .nil (s.map .chr) m = .ok (List.replicate s.length 10, m) := by
  have : ∀ line, items sh line (s.map .chr) m = .ok (List.replicate s.length 10, m) := by
    induction s with
    | nil => intro _; rfl
    | cons c s ih =>
      intro line
      rw [List.map_cons, items]
      have : assign line (.chr c) m = .ok (none, m) := by unfold assign; rfl
      rw [this]
      simp only [Outcome.bind_ok, plot, ih]
      rfl
  unfold write
  rw [this]
  rfl

-- "set grid"
example : write showInt .nil ([115, 101, 116, 32, 103, 114, 105, 100].map .chr) data = .ok ([10, 10, 10, 10, 10, 10, 10, 10], data) := plot_string_blank showInt data _

/-- What `write` has no text for. -/
def Refused (m : Mem α) (x : Item α) : Prop :=
  x = .other ∨ ∃ b o shape, x = .arr b ∧ IsArr m b o shape ∧ (¬ Real b.kind ∨ 2 < shape.length)

theorem plotArr_refused {sh : α → Bytes} {m : Mem α} {b : Ref} {o : Nat} {shape : List Int} (h : IsArr m b o shape) (hr : ¬ Real b.kind ∨ 2 < shape.length) : ∃ e, plotArr sh b m = .thrown (.error e) := by
  obtain ⟨d, hd, he, hs, hl, hlen⟩ := h.shape
  have hdim := hs.dim
  unfold plotArr
  cases hk : b.kind with
  | cfloat => exact ⟨_, rfl⟩
  | cdouble => exact ⟨_, rfl⟩
  | _ =>
    rcases hr with hr | hr
    · exact absurd (by rw [hk]; simp [Real]) hr
    · simp only [he, Outcome.bind_ok]
      rw [if_neg (by omega), if_neg (by omega)]
      exact ⟨_, rfl⟩

/-- C129: anything else in the list is refused by an exception, also behind items that are not. -/
theorem plot_refuses {sh : α → Bytes} (hp : ∀ x, Plain (sh x)) (file : Val) (m : Mem α) (xs : List (Item α)) (ts : List Bytes) (h : List.Forall₂ (Shows sh m) xs ts)
    (x : Item α) (hx : Refused m x) (hc : List.IsChain (fun x y => ¬ Clash m x y) (xs ++ [x])) (ys : List (Item α)) : ∃ e, write sh file (xs ++ x :: ys) m = .thrown (.error e) := by
  have key : ∀ line, (∀ v, line = some v → (∃ o s, IsArr m v o s) ∧ ∀ y ∈ (xs ++ [x]).head?, ¬ Clash m (.arr v) y) → ∃ e, items sh line (xs ++ x :: ys) m = .thrown (.error e) := by
    intro line hl
    induction h generalizing line with
    | nil =>
      rw [List.nil_append, items]
      rcases hx with rfl | ⟨b, o, shape, rfl, ha, hr⟩
      · have : assign line (.other : Item α) m = .ok (none, m) := by unfold assign; rfl
        exact ⟨_, by rw [this]; rfl⟩
      · rw [assign_ok ha hl]
        simp only [Outcome.bind_ok, plot]
        obtain ⟨e, he⟩ := plotArr_refused (sh := sh) ha hr
        exact ⟨e, by rw [he]; rfl⟩
    | @cons x' t xs ts hx' _ ih =>
      have hc' : List.IsChain (fun x y => ¬ Clash m x y) (xs ++ [x]) := hc.tail
      have hn : ∀ y ∈ (xs ++ [x]).head?, ¬ Clash m x' y := by
        intro y hy
        rw [List.cons_append] at hc
        cases hz : xs ++ [x] with
        | nil => simp at hz
        | cons z zs =>
          rw [hz] at hy hc
          simp only [List.head?_cons, Option.mem_def, Option.some.injEq] at hy
          subst hy
          exact (List.isChain_cons_cons.1 hc).1
      rw [List.cons_append, items]
      cases x' with
      | cmd s =>
        obtain ⟨e, ih⟩ := ih hc' none (fun v h => by cases h)
        exact ⟨e, by simp [assign, plot, ih]⟩
      | num x =>
        obtain ⟨e, ih⟩ := ih hc' none (fun v h => by cases h)
        exact ⟨e, by simp [assign, plot, ih]⟩
      | chr c => cases hx'
      | other => cases hx'
      | arr b =>
        have hb := shows_arr hx'
        obtain ⟨e, ih⟩ := ih hc' (some b) (fun v h => by cases h; exact ⟨hb, hn⟩)
        refine ⟨e, ?_⟩
        obtain ⟨ob, sb, hb⟩ := hb
        rw [assign_ok hb hl]
        simp only [Outcome.bind_ok, plot]
        rw [plotArr_text hp hx', Outcome.bind_ok, ih]
        rfl
  obtain ⟨e, he⟩ := key none (fun v h => by cases h)
  refine ⟨e, ?_⟩
  unfold write
  rw [he]
  rfl

-- a vector, then one of complex numbers
example : List.Forall₂ (Shows showInt data) [.arr pair] [[7, 8].flatMap (fun x => showInt x ++ [10]) ++ [101, 10]] ∧ Refused data (.arr { pair with kind := .cfloat }) ∧
    List.IsChain (fun x y => ¬ Clash data x y) ([.arr pair] ++ [.arr { pair with kind := .cfloat }]) := by
  refine ⟨.cons pair_shows .nil, .inr ⟨_, 0, [2], rfl, .plain [7, 8] rfl (by decide) rfl, .inl (by simp [Real])⟩, ?_⟩
  simp only [List.cons_append, List.nil_append, List.isChain_cons_cons, List.IsChain.singleton, and_true]
  rintro ⟨v, b, ov, ob, s, h1, -, h2, -⟩
  cases h1
  exact h2 rfl

#print axioms plot_text_partial
#print axioms plot_overwrites
#print axioms plot_int_throws
#print axioms plot_one_undefined
#print axioms plot_string_blank
#print axioms plot_refuses

end Libube.GnuplotProps

import Verif.Model.Qwt
import Verif.Lemmas.Rows
import Mathlib.Data.List.TakeWhile

/-! # C152: plotting with Qwt -/

namespace Libube.QwtProps

open View RowsSpec CString Qwt

/-- The numbers of an argument: none for nil, one for a number, those of an array or a view of one. -/
inductive Numbers : Arg α → List α → Prop
  | nil : Numbers .nil []
  | num (x : α) : Numbers (.num x) [x]
  | arr (a : Arr α) (o : Nat) (sh : List Int) (xs : List α) : Shaped a o sh → (xs.length : Int) = sh.prod → (∀ (i : Nat) (x : α), xs[i]? = some x → a.data[o + i]? = some x) →
      Numbers (.arr a) xs

/-- A text without NUL; what is not an array is the empty text. -/
inductive Reads : Text → Bytes → Prop
  | str (s : Bytes) : (∀ c ∈ s, c ≠ 0) → Reads (.str s) s
  | none : Reads .none []

/-- Point `i` of the curve is element `i` of one and element `i` of the other, for as many as there are of both. -/
inductive Draws : Call α → Curve α → Prop
  | curve (x y : Arg α) (t : Text) (xs ys : List α) (ps : List (α × α)) (s : Bytes) : Numbers x xs → Numbers y ys → Reads t s → ps.length = min xs.length ys.length →
      (∀ (i : Nat) (p : α × α), ps[i]? = some p → xs[i]? = some p.1 ∧ ys[i]? = some p.2) → Draws (.curve x y t) ⟨ps, s⟩

/-- Calls with arrays of numbers of type double, and strings. -/
def Proper : Call α → Prop
  | .plot => True
  | .curve x y t => (∃ xs, Numbers x xs) ∧ (∃ ys, Numbers y ys) ∧ ∃ s, Reads t s
  | .axes x y => (∃ s, Reads x s) ∧ ∃ s, Reads y s

def isPlot : Call α → Bool
  | .plot => true
  | _ => false

def isCurve : Call α → Bool
  | .curve _ _ _ => true
  | _ => false

def isAxes : Call α → Bool
  | .axes _ _ => true
  | _ => false

/-- The titles of the axes are those of the last call, or empty. -/
inductive Titled : Option (Call α) → Bytes → Bytes → Prop
  | none : Titled none [] []
  | axes (x y : Text) (s t : Bytes) : Reads x s → Reads y t → Titled (some (.axes x y)) s t

theorem str_reads {t : Text} {s : Bytes} (h : Reads t s) : str t = .ok s := by
  cases h with
  | str s h =>
    show Outcome.ok (cstr s) = _
    unfold cstr
    rw [List.takeWhile_eq_self_iff.2 (fun c hc => by simpa using h c hc)]
  | none => rfl

theorem read_eq {d : List α} : ∀ (n p : Nat), p + n ≤ d.length → Qwt.read d (p : Int) n = .ok ((d.drop p).take n)
  | 0, p, _ => by simp [Qwt.read]
  | n + 1, p, h => by
    have hp : p < d.length := by omega
    have e : load d (p : Int) = .ok d[p] := by
      unfold load
      simp [hp]
    have ih := read_eq (d := d) n (p + 1) (by omega)
    rw [Nat.cast_succ] at ih
    unfold Qwt.read
    rw [e, Outcome.bind_ok, ih, Outcome.bind_ok, List.drop_eq_getElem_cons hp, List.take_succ_cons]

theorem numbers_eq {x : Arg α} {xs : List α} (h : Numbers x xs) : size x = .ok xs.length ∧ ∀ n, n ≤ xs.length → samples n x = .ok (xs.take n) := by
  cases h with
  | nil => exact ⟨rfl, fun n hn => by simp only [List.length_nil] at hn; simp [samples, show n = 0 by omega]⟩
  | num x =>
    refine ⟨rfl, fun n hn => ?_⟩
    simp only [List.length_singleton] at hn
    rcases n with _ | n
    · rfl
    · have : n = 0 := by omega
      subst this
      rfl
  | arr a o sh xs hs hl hx =>
    obtain ⟨h1, h2, h3⟩ := hs.shape
    refine ⟨by unfold Qwt.size; simp only; rw [h1.size, hl], fun n hn => ?_⟩
    have hoff : locate a 0 = .ok (o : Int) := by
      unfold locate
      rw [h1.offset, Outcome.bind_ok, Int.zero_add]
      exact cint_ok ⟨by omega, by omega⟩
    simp only [samples, hoff, Outcome.bind_ok]
    rw [read_eq n o (by omega)]
    congr 1
    apply List.ext_getElem?
    intro i
    by_cases hi : i < n
    · rw [List.getElem?_take_of_lt hi, List.getElem?_take_of_lt hi, List.getElem?_drop]
      have hi' : i < xs.length := by omega
      rw [List.getElem?_eq_getElem hi']
      exact hx i _ (List.getElem?_eq_getElem hi')
    · rw [List.getElem?_eq_none (by simp; omega), List.getElem?_eq_none (by simp; omega)]

theorem curve_eq {x y : Arg α} {t : Text} {xs ys : List α} {s : Bytes} (hx : Numbers x xs) (hy : Numbers y ys) (ht : Reads t s) (P : Plot α) :
    ∃ c, curve x y t (some P) = .ok (some { P with curves := P.curves ++ [c] }) ∧ Draws (.curve x y t) c := by
  obtain ⟨x1, x2⟩ := numbers_eq hx
  obtain ⟨y1, y2⟩ := numbers_eq hy
  have hn : (min (xs.length : Int) ys.length).toNat = min xs.length ys.length := by omega
  refine ⟨⟨(xs.take (min xs.length ys.length)).zip (ys.take (min xs.length ys.length)), s⟩, ?_, ?_⟩
  · unfold curve
    rw [str_reads ht]
    simp only [Outcome.bind_ok, x1, y1, hn, x2 _ (Nat.min_le_left _ _), y2 _ (Nat.min_le_right _ _)]
  · refine .curve x y t xs ys _ s hx hy ht (by simp) fun i p hp => ?_
    obtain ⟨h1, h2⟩ := List.getElem?_zip_eq_some.1 hp
    have key : ∀ {l : List α} {n : Nat} {z : α}, (l.take n)[i]? = some z → l[i]? = some z := fun h => by
      rw [List.getElem?_take] at h
      split at h
      · exact h
      · cases h
    exact ⟨key h1, key h2⟩

theorem run_append : ∀ (cs ds : List (Call α)) (s : State α), run (cs ++ ds) s = (run cs s >>= run ds)
  | [], _, _ => rfl
  | c :: cs, ds, s => by
    have ih := run_append cs ds
    simp only [List.cons_append, run]
    cases call c s <;> simp [ih]

/-- After the last call of `plot`. -/
theorem run_post : ∀ (cs : List (Call α)) (P : Plot α), (∀ c ∈ cs, Proper c) → (∀ c ∈ cs, isPlot c = false) →
    ∃ Q l, run cs (some P) = .ok (some Q) ∧ Q.curves = P.curves ++ l ∧ List.Forall₂ Draws (cs.filter isCurve) l ∧
      ((cs.filter isAxes).getLast? = none ∧ Q.x = P.x ∧ Q.y = P.y ∨ (cs.filter isAxes).getLast? ≠ none ∧ Titled (cs.filter isAxes).getLast? Q.x Q.y)
  | [], P, _, _ => ⟨P, [], rfl, by simp, .nil, .inl ⟨rfl, rfl, rfl⟩⟩
  | c :: cs, P, hp, hn => by
    have ih := fun P => run_post cs P (fun c hc => hp c (by simp [hc])) (fun c hc => hn c (by simp [hc]))
    cases c with
    | plot => have := hn .plot (by simp); cases this
    | curve x y t =>
      obtain ⟨⟨xs, hx⟩, ⟨ys, hy⟩, s, ht⟩ := hp _ List.mem_cons_self
      obtain ⟨c, e, hc⟩ := curve_eq hx hy ht P
      obtain ⟨Q, l, e', h1, h2, h3⟩ := ih { P with curves := P.curves ++ [c] }
      refine ⟨Q, c :: l, by simp only [run, call, e, Outcome.bind_ok, e'], by simp [h1], ?_, ?_⟩
      · rw [List.filter_cons_of_pos rfl]
        exact .cons hc h2
      · rw [List.filter_cons_of_neg (by simp [isAxes])]
        exact h3
    | axes x y =>
      obtain ⟨⟨s, hx⟩, t, hy⟩ := hp _ List.mem_cons_self
      obtain ⟨Q, l, e', h1, h2, h3⟩ := ih { P with x := s, y := t }
      refine ⟨Q, l, by simp only [run, call, axes, str_reads hx, str_reads hy, Outcome.bind_ok, e'], h1, ?_, ?_⟩
      · rw [List.filter_cons_of_neg (by simp [isCurve])]
        exact h2
      · rw [List.filter_cons_of_pos rfl]
        right
        rcases h3 with ⟨g1, g2, g3⟩ | ⟨g1, g2⟩
        · rw [List.getLast?_eq_none_iff] at g1
          rw [g1, g2, g3]
          exact ⟨by simp, .axes x y s t hx hy⟩
        · cases hf : (cs.filter isAxes).getLast? with
          | none => exact absurd hf g1
          | some d =>
            rw [List.getLast?_cons, hf]
            rw [hf] at g2
            exact ⟨by simp, g2⟩

/-- Calls before that. -/
theorem run_pre : ∀ (cs : List (Call α)) (P : Plot α), (∀ c ∈ cs, Proper c) → ∃ Q, run cs (some P) = .ok (some Q)
  | [], P, _ => ⟨P, rfl⟩
  | c :: cs, P, hp => by
    have ih := fun P => run_pre cs P (fun c hc => hp c (by simp [hc]))
    cases c with
    | plot =>
      obtain ⟨Q, e⟩ := ih ⟨[], [], []⟩
      exact ⟨Q, by simp only [run, call, plot, Outcome.bind_ok, e]⟩
    | curve x y t =>
      obtain ⟨⟨xs, hx⟩, ⟨ys, hy⟩, s, ht⟩ := hp _ List.mem_cons_self
      obtain ⟨c, e, -⟩ := curve_eq hx hy ht P
      obtain ⟨Q, e'⟩ := ih { P with curves := P.curves ++ [c] }
      exact ⟨Q, by simp only [run, call, e, Outcome.bind_ok, e']⟩
    | axes x y =>
      obtain ⟨⟨s, hx⟩, t, hy⟩ := hp _ List.mem_cons_self
      obtain ⟨Q, e'⟩ := ih { P with x := s, y := t }
      exact ⟨Q, by simp only [run, call, axes, str_reads hx, str_reads hy, Outcome.bind_ok, e']⟩

/-- C152: after any calls of which the first is `plot()`, the window shows the curves given since the last `plot()`, in their order, with their points and titles, and
    the titles of the axes given last since then. -/
theorem plot_shows (pre post : List (Call α)) (hpre : pre = [] ∨ pre.head? = some .plot) (hp : ∀ c ∈ pre ++ post, Proper c) (hn : ∀ c ∈ post, isPlot c = false) :
    ∃ P : Plot α, run (pre ++ .plot :: post) none = .ok (some P) ∧ List.Forall₂ Draws (post.filter isCurve) P.curves ∧ Titled (post.filter isAxes).getLast? P.x P.y := by
  obtain ⟨s, hs⟩ : ∃ s, run pre none = .ok s := by
    rcases pre with _ | ⟨c, cs⟩
    · exact ⟨none, rfl⟩
    · rcases hpre with h | h
      · cases h
      · simp only [List.head?_cons, Option.some.injEq] at h
        subst h
        obtain ⟨Q, e⟩ := run_pre cs (⟨[], [], []⟩ : Plot α) (fun c hc => hp c (by simp [hc]))
        exact ⟨some Q, by simp only [run, call, plot, Outcome.bind_ok, e]⟩
  obtain ⟨Q, l, e, h1, h2, h3⟩ := run_post post (⟨[], [], []⟩ : Plot α) (fun c hc => hp c (by simp [hc])) hn
  refine ⟨Q, ?_, ?_, ?_⟩
  · rw [run_append, hs, Outcome.bind_ok]
    simp only [run, call, plot, Outcome.bind_ok, e]
  · rw [h1]; exact h2
  · rcases h3 with ⟨g1, g2, g3⟩ | ⟨-, g⟩
    · rw [g1, g2, g3]; exact .none
    · exact g

/-- C152: a call other than `plot()` before the first one uses a pointer that has not been set. -/
theorem early_undefined (c : Call α) (cs : List (Call α)) (hc : Proper c) (hn : isPlot c = false) : run (c :: cs) none = .ub .uninit := by
  cases c with
  | plot => cases hn
  | curve x y t =>
    obtain ⟨-, -, s, ht⟩ := hc
    simp only [run, call, curve, str_reads ht, Outcome.bind_ok, Outcome.bind_ub]
  | axes x y => rfl

/-- Numbers of another type are not converted: the memory is read as if they were of type double. -/
theorem other_undefined (P : Plot α) (n : Nat) (hn : 0 < n) (y : Arg α) (ys : List α) (hy : Numbers y ys) (h0 : 0 < ys.length) (t : Text) (s : Bytes) (ht : Reads t s) :
    call (.curve (.other n) y t) (some P) = .ub .typePun := by
  obtain ⟨y1, -⟩ := numbers_eq hy
  have h : (min (n : Int) ys.length).toNat ≠ 0 := by omega
  have e : size (.other n : Arg α) = .ok (n : Int) := rfl
  simp only [call, curve, str_reads ht, Outcome.bind_ok, e, y1, samples, if_neg h, Outcome.bind_ub]

/-- Three numbers and the last two of three. -/
def abscissa : Arg Int := .arr ⟨[1, 2, 3], none⟩
def ordinate : Arg Int := .arr ⟨[7, 8, 9], some [1, 2, 1]⟩

theorem abscissa_numbers : Numbers abscissa [1, 2, 3] := .arr _ 0 [3] _ (.plain rfl (by decide)) rfl (fun i x h => by simpa using h)
theorem ordinate_numbers : Numbers ordinate [8, 9] := .arr _ 1 [2] _ (.view 1 [2] rfl (by decide)) rfl (fun i x h => by
  rw [Nat.add_comm]; simpa using h)

example : Proper (.curve abscissa ordinate (.str [65])) ∧ Proper (.axes (.str [120]) .none : Call Int) :=
  ⟨⟨⟨_, abscissa_numbers⟩, ⟨_, ordinate_numbers⟩, _, .str [65] (by decide)⟩, ⟨_, .str [120] (by decide)⟩, _, .none⟩

example : run [.plot, .curve abscissa abscissa .none, .plot, .curve abscissa ordinate (.str [65]), .axes (.str [120]) .none] none =
    .ok (some ⟨[⟨[(1, 8), (2, 9)], [65]⟩], [120], []⟩) := rfl

#print axioms plot_shows
#print axioms early_undefined
#print axioms other_undefined

end Libube.QwtProps

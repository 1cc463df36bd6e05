import Verif.Model.JsonView
import Verif.Lemmas.JsonList
import Verif.Props.View
import Verif.Props.Json

/-! # Printing of views (C127) -/

namespace Libube.Json

open View ViewSpec JsonSpec CString

/-- Texts of elements, each followed by a comma or the end of a line, with blanks in front; then blanks, the bracket and `t`. -/
inductive Spaced (t : Bytes) : List Val → Bytes → Prop
  | nil {b : Bytes} : (∀ c ∈ b, isspace c = true) → Spaced t [] (b ++ 93 :: t)
  | cons {x : Val} {xs : List Val} {b u : Bytes} {c : UInt8} : (∀ c ∈ b, isspace c = true) → (c = 44 ∨ c = 10) → Spaced t xs u → Spaced t (x :: xs) (b ++ (format 0 x ++ c :: u))

theorem Spaced.blank {t : Bytes} {xs : List Val} {u : Bytes} (h : Spaced t xs u) {b : Bytes} (hb : ∀ c ∈ b, isspace c = true) : Spaced t xs (b ++ u) := by
  cases h with
  | nil h =>
    rw [← List.append_assoc]
    exact .nil fun c hc => (List.mem_append.1 hc).elim (hb c) (h c)
  | cons h1 h2 h3 =>
    rw [← List.append_assoc]
    exact .cons (fun c hc => (List.mem_append.1 hc).elim (hb c) (h1 c)) h2 h3

theorem runs_spaced (n : Nat) (t : Bytes) {xs ws : List Val} (h : List.Forall₂ (fun v w => Trips v w ∧ Starts v) xs ws) {u : Bytes} (hu : Spaced t xs u) (acc final : Val)
    (hp : ws.foldlM push acc = .ok final) : RunsA (n + 2) ⟨u, false⟩ acc final ⟨t, false⟩ := by
  induction h generalizing acc u with
  | nil =>
    simp only [List.foldlM_nil, Outcome.pure_eq, Outcome.ok.injEq] at hp
    subst hp
    cases hu with
    | nil hb => exact (RunsA.close _ t acc).skip (skip_blank _ _ hb)
  | @cons x w xs ws hx _ ih =>
    rw [List.foldlM_cons] at hp
    cases hu with
    | @cons _ _ b u d hb hd hu =>
      cases hq : push acc w with
      | ok acc' =>
        rw [hq] at hp
        have ih := ih hu acc' hp
        obtain ⟨c, r, hc, h1, h2, h3⟩ := hx.2 0
        obtain ⟨s1, hr, ha⟩ := hx.1 n 0 (d :: u) (Or.inr ⟨u, by rcases hd with rfl | rfl <;> simp⟩)
        have := RunsA.value hr hq (ih.after hd ha) ⟨c, r ++ d :: u, by rw [hc, List.cons_append, skip_head h1], h2, h3⟩
        exact this.skip (skip_blank _ _ hb)
      | thrown e => rw [hq] at hp; simp at hp
      | ub e => rw [hq] at hp; simp at hp
      | abort => rw [hq] at hp; simp at hp
      | diverge => rw [hq] at hp; simp at hp

/-- The elements of a view are printed as `xs`, in the order of their index. -/
def Items (kind : Kind) (a : Arr Val) (p : Int) (xs : List Val) : Prop := ∀ (i : Nat) (x : Val), xs[i]? = some x → entry kind a (p + i) = .ok (format 0 x)

theorem Items.tail {kind : Kind} {a : Arr Val} {p : Int} {x : Val} {xs : List Val} (h : Items kind a p (x :: xs)) : entry kind a p = .ok (format 0 x) ∧ Items kind a (p + 1) xs := by
  refine ⟨by simpa using h 0 x rfl, fun i y hy => ?_⟩
  have := h (i + 1) y (by simpa using hy)
  rwa [Nat.cast_succ, show p + ((i : Int) + 1) = p + 1 + i by ring] at this

theorem Items.drop {kind : Kind} {a : Arr Val} {p : Int} {xs : List Val} (h : Items kind a p xs) (k : Nat) : Items kind a (p + k) (xs.drop k) := by
  intro i y hy
  rw [List.getElem?_drop] at hy
  have := h (k + i) y hy
  rwa [Nat.cast_add, ← Int.add_assoc] at this

theorem row_spaced {kind : Kind} {a : Arr Val} {p : Int} {c : Nat} {last : Bool} {t rest : Bytes} {ys : List Val} (hr : Spaced t ys rest) :
    ∀ (n i : Nat) (xs : List Val), xs.length = n + 1 → i + (n + 1) = c → Items kind a (p + i) xs →
      ∃ u, rowLoop kind a p c last i (n + 1) = .ok u ∧ Spaced t (xs ++ ys) (u ++ 10 :: rest)
  | 0, i, [x], _, hc, h => by
    have hx := h.tail.1
    have hi : ¬ (i : Int) ≠ (c : Int) - 1 := by omega
    refine ⟨_, by simp only [rowLoop, hx, Outcome.bind_ok]; rfl, ?_⟩
    simp only [hi, or_false, if_false, List.append_nil]
    cases last with
    | true => simpa using Spaced.cons (x := x) (b := []) (by simp) (Or.inr rfl) hr
    | false => simpa using Spaced.cons (x := x) (b := []) (c := 44) (by simp) (Or.inl rfl) (hr.blank (b := [10]) (by decide))
  | n + 1, i, x :: xs, hl, hc, h => by
    obtain ⟨hx, ht⟩ := h.tail
    obtain ⟨u, h1, h2⟩ := row_spaced hr (c := c) (last := last) n (i + 1) xs (by simpa using hl) (by omega) (by rw [Nat.cast_succ, ← Int.add_assoc]; exact ht)
    have hi : (i : Int) ≠ (c : Int) - 1 := by omega
    rw [Nat.cast_succ] at h1
    refine ⟨format 0 x ++ [44] ++ [32] ++ u, ?_, ?_⟩
    · rw [rowLoop]
      simp only [hx, Outcome.bind_ok, h1]
      simp [hi]
    · have := Spaced.cons (x := x) (b := []) (c := 44) (by simp) (Or.inl rfl) (h2.blank (b := [32]) (by decide))
      simpa using this

theorem mat_spaced {kind : Kind} {a : Arr Val} {ind r c : Nat} {k : Int} (hc : 0 < c) (t : Bytes) :
    ∀ (n j : Nat) (xs : List Val), xs.length = n * c → j + n = r → Items kind a (k * r * c + j * c) xs →
      ∃ u, matLoop kind a ind r c k j n = .ok u ∧ Spaced t xs (u ++ (spaces ind ++ 93 :: t))
  | 0, j, xs, hl, _, _ => by
    obtain rfl : xs = [] := List.length_eq_zero_iff.1 (by simpa using hl)
    exact ⟨[], rfl, .nil (spaces_blank _)⟩
  | n + 1, j, xs, hl, hr, h => by
    obtain ⟨u, h1, h2⟩ := mat_spaced (kind := kind) hc t (ind := ind) (r := r) (k := k) n (j + 1) (xs.drop c) (by rw [List.length_drop, hl, Nat.succ_mul]; omega) (by omega) (by
      have := h.drop c
      rwa [show k * r * c + (j : Int) * c + c = k * r * c + ((j + 1 : Nat) : Int) * c by push_cast; ring] at this)
    obtain ⟨m, rfl⟩ : ∃ m, c = m + 1 := ⟨c - 1, by omega⟩
    have hlt : m + 1 ≤ xs.length := by rw [hl, Nat.succ_mul]; omega
    obtain ⟨v, h3, h4⟩ := row_spaced (kind := kind) (a := a) (p := k * r * (m + 1 : Nat) + j * (m + 1 : Nat)) (c := m + 1) (last := decide ((j : Int) = r - 1)) h2 m 0 (xs.take (m + 1))
      (by rw [List.length_take]; omega) (by omega) (fun i x hx => by
        rw [Nat.cast_zero, Int.add_zero]
        exact h i x (by
          rw [List.getElem?_take] at hx
          split at hx
          · exact hx
          · cases hx))
    rw [List.take_append_drop] at h4
    refine ⟨spaces (ind + 2) ++ v ++ [10] ++ u, ?_, ?_⟩
    · rw [matLoop]
      simp only [Int.toNat_natCast]
      rw [Nat.cast_succ j] at h1
      rw [Nat.cast_zero] at h3
      simp only [h3, h1, Outcome.bind_ok]
    · simpa using h4.blank (spaces_blank (ind + 2))

theorem item_get {v : Arr Val} {o : Int} {r c : Nat} (h : HasShape v o [(r : Int), (c : Int)]) {i j : Nat} (hi : i < r) (hj : j < c) : item v (((i * c + j : Nat)) : Int) = get v i [(j : Int)] := by
  have h1 := h.index_ok i [(j : Int)] [] (by exact ⟨by omega, by omega, by omega, by omega, trivial⟩)
  have h2 : pos [(r : Int), (c : Int)] [(i : Int), (j : Int)] = ((i * c + j : Nat) : Int) := by simp [pos]
  have h3 : i * c + j < r * c := by
    have := Nat.mul_le_mul_right c (show i + 1 ≤ r by omega)
    rw [Nat.succ_mul] at this
    omega
  rw [List.append_nil, h2] at h1
  unfold item View.get
  rw [if_neg (by omega), h1, h.size]
  simp only [Outcome.bind_ok, List.prod_cons, List.prod_nil, Int.mul_one]
  rw [if_neg (by rw [ge_iff_le, not_le]; exact_mod_cast h3)]

/-- The elements of a matrix, row after row. -/
def Rows (v : Arr Val) (r c : Nat) (xs : List Val) : Prop :=
  xs.length = r * c ∧ ∀ (i j : Nat) (x : Val), i < r → j < c → xs[i * c + j]? = some x → get v i [(j : Int)] = .ok x

theorem rows_items {v : Arr Val} {o : Int} {r c : Nat} (h : HasShape v o [(r : Int), (c : Int)]) (hc : 0 < c) {xs : List Val} (hx : Rows v r c xs) (k : Nat) (x : Val) (hk : xs[k]? = some x) :
    item v (0 + k) = .ok x := by
  have hlt : k < r * c := by rw [← hx.1]; exact (List.getElem?_eq_some_iff.1 hk).1
  have e : k / c * c + k % c = k := by rw [Nat.mul_comm]; exact Nat.div_add_mod k c
  have hi : k / c < r := Nat.div_lt_of_lt_mul (by rw [Nat.mul_comm]; exact hlt)
  have hj := Nat.mod_lt k hc
  have := item_get h hi hj
  rw [hx.2 (k / c) (k % c) x hi hj (by rw [e]; exact hk), e] at this
  rw [Int.zero_add]
  exact this

theorem matrix_text {kind : Kind} {v : Arr Val} {o : Int} {r c : Nat} (h : HasShape v o [(r : Int), (c : Int)]) (hc : 0 < c) {xs : List Val} (hl : xs.length = r * c) (hx : Items kind v 0 xs) (ind : Nat)
    (t : Bytes) : ∃ u, formatView kind ind v = .ok (91 :: u) ∧ Spaced t xs (u ++ t) := by
  obtain ⟨u, h1, h2⟩ := mat_spaced (kind := kind) (a := v) (ind := ind) (r := r) (k := 0) hc t r 0 xs hl (by omega) (by simpa using hx)
  have hd := h.dim
  have s0 := h.shape (pre := []) rfl
  have s1 := h.shape (pre := [(r : Int)]) rfl
  simp only [List.length_cons, List.length_nil] at hd s0 s1
  refine ⟨[10] ++ u ++ spaces ind ++ [93], ?_, ?_⟩
  · unfold formatView
    simp only [hd]
    simp only [Nat.zero_add, Nat.cast_one, Nat.cast_zero] at s0 s1
    rw [Nat.cast_zero] at h1
    simp [matsLoop, s0, s1, tensorLoop, h1]
  · simpa using h2.blank (b := [10]) (by decide)

theorem good_read {xs : List Val} (hg : Good (.arr xs)) :
    ∃ ws final, List.Forall₂ (fun v w => Trips v w ∧ Starts v) xs ws ∧ ws.foldlM push .nil = .ok final ∧ Same (.arr xs) final := by
  cases hg with
  | arr x ys hx hy =>
    obtain ⟨ws, hws⟩ := forall₂_of_forall _ fun y hy' => good_trips (hy y hy')
    refine ⟨ws, .arr ws, hws.imp fun _ _ h => ⟨h.2.1, h.2.2.1⟩, ?_, .arr _ _ (hws.imp fun _ _ h => h.1)⟩
    cases hws with
    | cons h _ => exact push_first _ _ (h.2.2.2 hx)
  | ints x y ys hx =>
    obtain ⟨ls, hls⟩ := forall₂_of_forall _ (fun z hz => good_int (hx z hz))
    have h2 : List.Forall₂ (fun v w => Same v w ∧ Trips v w ∧ Starts v) (x :: y :: ys) (ls.map Val.long) := by
      rw [List.forall₂_map_right_iff]; exact hls
    refine ⟨_, .longs ls, h2.imp fun _ _ h => h.2, ?_, .longs _ _ (h2.imp fun _ _ h => h.1)⟩
    cases hls with
    | cons _ hls => cases hls with
      | cons _ _ => exact push_ints _ _ _

theorem nils_same : ∀ {n : Nat} {ys : List Val}, List.Forall₂ Same (List.replicate n .nil) ys → ys = List.replicate n .nil
  | 0, _, .nil => rfl
  | n + 1, _, .cons .nil h => by rw [nils_same h]; rfl

/-- If the first element of a matrix cannot be printed, neither can the matrix. -/
theorem first_entry {kind : Kind} {v : Arr Val} {o : Int} {r c : Nat} (h : HasShape v o [(r : Int), (c : Int)]) (hr : 0 < r) (hc : 0 < c) (ind : Nat) {e : Outcome Bytes}
    (he : entry kind v 0 = e) (hb : ∀ f : Bytes → Outcome Bytes, e >>= f = e) : formatView kind ind v = e := by
  obtain ⟨r, rfl⟩ : ∃ m, r = m + 1 := ⟨r - 1, by omega⟩
  obtain ⟨c, rfl⟩ : ∃ m, c = m + 1 := ⟨c - 1, by omega⟩
  have hd := h.dim
  have s0 := h.shape (pre := []) rfl
  have s1 := h.shape (pre := [((r + 1 : Nat) : Int)]) rfl
  simp only [List.length_cons, List.length_nil] at hd s0 s1
  simp only [Nat.zero_add, Nat.cast_one, Nat.cast_zero] at s0 s1
  have h1 : rowLoop kind v 0 ((c + 1 : Nat) : Int) (decide ((0 : Int) = ((r + 1 : Nat) : Int) - 1)) 0 (c + 1) = e := by
    unfold rowLoop
    rw [Int.zero_add, he, hb]
  have h2 : matLoop kind v ind ((r + 1 : Nat) : Int) ((c + 1 : Nat) : Int) 0 0 (r + 1) = e := by
    unfold matLoop
    rw [show (0 : Int) * ((r + 1 : Nat) : Int) * ((c + 1 : Nat) : Int) + 0 * ((c + 1 : Nat) : Int) = 0 by ring, Int.toNat_natCast, h1, hb]
  unfold formatView
  simp [hd, s0, s1, matsLoop, tensorLoop]
  push_cast at h2
  rw [h2]
  simp [hb]

/-- C127: the printed text of a matrix of at least two integers is read back as the array of them, row after row, with nothing left over.
    Missing: other numbers (C20), a matrix of one number, arrays of vars (`matrix_of_arrays_lost`, `matrix_of_vars_undefined`); views of more or fewer than two dimensions (`tensor_read_as_number`,
    `line_rejected`). -/
theorem matrix_round_trip_partial {kind : Kind} (hk : kind = .int ∨ kind = .long) {a v : Arr Val} {r c : Nat} {off : Int} (hv : view a [(r : Int), (c : Int)] off = .ok v) (hc : 0 < c)
    (h2 : 2 ≤ r * c) {xs : List Val} (hx : Rows v r c xs) (hi : ∀ x ∈ xs, IsInteger x) (n : Nat) (hn : 2 ≤ n) :
    ∃ text, formatView kind 0 v = .ok text ∧ ∀ fuel, 2 * text.length + 1 ≤ fuel → ∃ w, parse n fuel text = .ok (w, []) ∧ Same (.arr xs) w := by
  obtain ⟨n, rfl⟩ : ∃ m, n = m + 2 := ⟨n - 2, by omega⟩
  obtain ⟨b, hb, hd, hs, hl, ho⟩ := view_shape hv
  have he : Items kind v 0 xs := fun k x hkx => by
    unfold entry
    rw [rows_items hs hc hx k x hkx, Outcome.bind_ok]
    rcases hk with rfl | rfl <;> rfl
  obtain ⟨u, h1, h3⟩ := matrix_text hs hc hx.1 he 0 []
  rw [List.append_nil] at h3
  have hg : Good (.arr xs) := by
    match xs, hx.1.symm ▸ h2, hi with
    | [], h, _ => exact absurd h (by decide)
    | [_], h, _ => exact absurd h (by simp)
    | x :: y :: ys, _, hi => exact .ints _ _ _ hi
  obtain ⟨ws, final, h4, h5, h6⟩ := good_read hg
  refine ⟨_, h1, fun fuel hf => ⟨final, ?_, h6⟩⟩
  exact parse_of_runs (Runs.array (runs_spaced n [] h4 h3 .nil final h5)) fuel hf

/-- C127: a matrix of strings or other arrays is printed as a matrix of nil, and that is what is read back. -/
theorem matrix_of_arrays_lost {kind : Kind} (hk : kind = .var ∨ kind = .pair) {a v : Arr Val} {r c : Nat} {off : Int} (hv : view a [(r : Int), (c : Int)] off = .ok v) (hr : 0 < r) (hc : 0 < c)
    {xs : List Val} (hx : Rows v r c xs) (hi : ∀ x ∈ xs, x.type = 0) (n : Nat) (hn : 2 ≤ n) :
    ∃ text, formatView kind 0 v = .ok text ∧ ∀ fuel, 2 * text.length + 1 ≤ fuel → parse n fuel text = .ok (.arr (List.replicate (r * c) .nil), []) := by
  obtain ⟨n, rfl⟩ : ∃ m, n = m + 2 := ⟨n - 2, by omega⟩
  obtain ⟨b, hb, hd, hs, hl, ho⟩ := view_shape hv
  have he : Items kind v 0 (List.replicate (r * c) .nil) := fun k x hkx => by
    rw [List.getElem?_replicate] at hkx
    split at hkx
    · next hlt =>
      cases hkx
      obtain ⟨y, hy⟩ : ∃ y, xs[k]? = some y := ⟨_, List.getElem?_eq_getElem (by rw [hx.1]; exact hlt)⟩
      unfold entry
      rw [rows_items hs hc hx k _ hy, Outcome.bind_ok]
      have := hi _ (List.mem_of_getElem? hy)
      rcases hk with rfl | rfl <;> simp [shown, this]
    · cases hkx
  obtain ⟨u, h1, h3⟩ := matrix_text hs hc (by simp) he 0 []
  rw [List.append_nil] at h3
  obtain ⟨m, hm⟩ : ∃ m, r * c = m + 1 := ⟨r * c - 1, by have := Nat.mul_pos hr hc; omega⟩
  have hg : Good (.arr (List.replicate (r * c) .nil)) := by
    rw [hm, List.replicate_succ]
    refine .arr _ _ (by simp [IsInteger]) fun y hy => ?_
    rw [← List.replicate_succ] at hy
    rw [List.eq_of_mem_replicate hy]
    exact .nil
  obtain ⟨ws, final, h4, h5, h6⟩ := good_read hg
  have hf : final = .arr (List.replicate (r * c) .nil) := by
    generalize r * c = l at h6 hm
    subst hm
    cases h6 with
    | arr _ ys h =>
      congr 1
      exact nils_same h
    | longs _ ys h =>
      cases ys with
      | nil => cases h
      | cons y ys => cases h with
        | cons h _ => cases h
  subst hf
  exact ⟨_, h1, parse_of_runs (Runs.array (runs_spaced n [] h4 h3 .nil _ h5))⟩

/-- C127: a matrix of which an element is a number held in a var is not printed: it is undefined what is written. -/
theorem matrix_of_vars_undefined {kind : Kind} (hk : kind = .var ∨ kind = .pair) {a v : Arr Val} {r c : Nat} {off : Int} (hv : view a [(r : Int), (c : Int)] off = .ok v) (hr : 0 < r) (hc : 0 < c)
    {x : Val} (hx : View.get v 0 [0] = .ok x) (ht : x.type ≠ 0) (ind : Nat) : formatView kind ind v = .ub .typePun := by
  obtain ⟨b, hb, hd, hs, hl, ho⟩ := view_shape hv
  refine first_entry hs hr hc ind ?_ (fun t => by simp)
  have h1 : item v 0 = .ok x := by simpa using (item_get hs hr hc).trans (by simpa using hx)
  unfold entry
  rw [h1, Outcome.bind_ok]
  rcases hk with rfl | rfl <;> simp [shown, ht]

/-- C127: a matrix of complex numbers in double precision is not printed. -/
theorem matrix_of_cdouble_rejected {a v : Arr Val} {r c : Nat} {off : Int} (hv : view a [(r : Int), (c : Int)] off = .ok v) (hr : 0 < r) (hc : 0 < c)
    {x : Val} (hx : View.get v 0 [0] = .ok x) (ind : Nat) : ∃ e, formatView .cdouble ind v = .thrown e := by
  obtain ⟨b, hb, hd, hs, hl, ho⟩ := view_shape hv
  refine ⟨_, first_entry hs hr hc ind (e := .thrown (.error "var::format(): cdouble should be array")) ?_ (fun t => by simp)⟩
  have h1 : item v 0 = .ok x := by simpa using (item_get hs hr hc).trans (by simpa using hx)
  unfold entry
  rw [h1, Outcome.bind_ok]
  rfl

theorem bind_inv {α β} {m : Outcome α} {f : α → Outcome β} {b : β} (h : (m >>= f) = .ok b) : ∃ a, m = .ok a ∧ f a = .ok b := by
  cases m with
  | ok a => exact ⟨a, rfl, h⟩
  | thrown _ => cases h
  | ub _ => cases h
  | abort => cases h
  | diverge => cases h

/-- The numbers 0 to 7. -/
def eight : Arr Val := ⟨[.int 0, .int 1, .int 2, .int 3, .int 4, .int 5, .int 6, .int 7], none⟩

/-- A 2 x 3 matrix in it. -/
def twoByThree : Arr Val := match view eight [2, 3] 1 with | .ok v => v | _ => eight

/-- A 2 x 2 x 2 tensor in it. -/
def cube : Arr Val := match view eight [2, 2, 2] 0 with | .ok v => v | _ => eight

/-- A view of three elements of it. -/
def three : Arr Val := match view eight [3] 2 with | .ok v => v | _ => eight

-- "[\n  1, 2, 3,\n  4, 5, 6\n]"
example : view eight [((2 : Nat) : Int), ((3 : Nat) : Int)] 1 = .ok twoByThree ∧ Rows twoByThree 2 3 [.int 1, .int 2, .int 3, .int 4, .int 5, .int 6] ∧
    Good (.arr [.int 1, .int 2, .int 3, .int 4, .int 5, .int 6]) ∧
    formatView .int 0 twoByThree = .ok [91, 10, 32, 32, 49, 44, 32, 50, 44, 32, 51, 44, 10, 32, 32, 52, 44, 32, 53, 44, 32, 54, 10, 93] := by
  refine ⟨rfl, ⟨rfl, ?_⟩, .ints _ _ _ ?_, ?_⟩
  · intro i j x hi hj hx
    obtain rfl | rfl : i = 0 ∨ i = 1 := by omega
    all_goals obtain rfl | rfl | rfl : j = 0 ∨ j = 1 ∨ j = 2 := by omega
    all_goals
      simp only [List.getElem?_cons_succ, List.getElem?_cons_zero, Nat.zero_mul, Nat.one_mul, Nat.zero_add, Nat.add_zero, Nat.reduceAdd, Option.some.injEq] at hx
      subst hx
      rfl
  · intro y hy
    simp only [List.mem_cons, List.not_mem_nil, or_false] at hy
    rcases hy with rfl | rfl | rfl | rfl | rfl | rfl <;> trivial
  · rfl

theorem headLoop_chars {a : Arr Val} {m : Int} : ∀ (n : Nat) (i : Int) (t : Bytes), headLoop a m i n = .ok t → ∀ x ∈ t, isdigit x = true ∨ x = 45 ∨ x = 120
  | 0, _, t, h => by cases h; simp
  | n + 1, i, t, h => by
    unfold headLoop at h
    obtain ⟨s, -, h⟩ := bind_inv h
    obtain ⟨r, hr, h⟩ := bind_inv h
    cases h
    intro x hx
    simp only [List.mem_append] at hx
    rcases hx with (hx | hx) | hx
    · rcases showInt_chars _ x hx with h | h
      · exact .inl h
      · exact .inr (.inl h)
    · split at hx
      · exact .inr (.inr (by simpa using hx))
      · simp at hx
    · exact headLoop_chars n (i + 1) r hr x hx

/-- C127: the text of a view of more than two dimensions begins with its shape, and all that is read back is the first dimension. -/
theorem tensor_read_as_number {kind : Kind} {a v : Arr Val} {d e f : Int} {ds : List Int} {off : Int} (hv : view a (d :: e :: f :: ds) off = .ok v) (hd : Fits d) (text : Bytes) (ht : formatView kind 0 v = .ok text)
    (n : Nat) (hn : 2 ≤ n) (fuel : Nat) (hf : 2 * text.length + 1 ≤ fuel) :
    ∃ l rest, parse n fuel text = .ok (.long l, rest) ∧ l.toInt = d := by
  obtain ⟨n, rfl⟩ : ∃ m, n = m + 2 := ⟨n - 2, by omega⟩
  obtain ⟨b, hb, -, hs, -, -⟩ := view_shape hv
  have hl : (BitVec.ofInt 64 d).toInt = d := by
    rw [BitVec.toInt_ofInt]
    refine Int.bmod_eq_of_le ?_ ?_
    · have := hd.1; omega
    · have := hd.2; omega
  have hdim := hs.dim
  have s0 := hs.shape (pre := []) rfl
  simp only [List.length_cons, List.length_nil, Nat.cast_zero] at hdim s0
  unfold formatView at ht
  simp only [hdim] at ht
  rw [if_pos (by omega)] at ht
  obtain ⟨h, h1, ht⟩ := bind_inv ht
  rw [if_neg (by omega)] at ht
  have h0 := h1
  unfold headLoop at h0
  rw [s0, Outcome.bind_ok] at h0
  obtain ⟨r, hr, h0⟩ := bind_inv h0
  rw [if_pos (by push_cast; omega)] at h0
  have h0 : showInt d ++ [120] ++ r = h := by cases h0; rfl
  obtain ⟨u, hu⟩ : ∃ u, text = h ++ 32 :: u := by
    obtain ⟨m1, _, ht⟩ := bind_inv ht
    obtain ⟨m2, _, ht⟩ := bind_inv ht
    obtain ⟨m3, _, ht⟩ := bind_inv ht
    obtain ⟨t, _, ht⟩ := bind_inv ht
    rw [if_pos (by omega)] at ht
    cases ht
    exact ⟨_, by simp [tensorWord]; rfl⟩
  have hc := headLoop_chars _ _ _ h1
  refine ⟨_, u, parse_of_runs (s' := ⟨u, false⟩) ?_ fuel hf, hl⟩
  obtain ⟨c, q, he, hq⟩ := showInt_head d (120 :: r ++ 32 :: u)
  have hp := isdigit_plain c hq
  have et : text = c :: q := by rw [hu, ← h0, ← he]; simp
  refine Runs.raw ?_ ⟨c, q, et, hp.1, hp.2.2.2.1, hp.2.2.2.2.1, hp.2.2.1⟩
  unfold doRaw
  rw [hu, rawLoop_delim [] h 32 u ?_ (by decide)]
  · have hv : rawValue ([] ++ h) = .ok (.long (BitVec.ofInt 64 d)) := by
      rw [List.nil_append, ← h0, List.append_assoc]
      refine rawValue_of_read (by conv_lhs => rw [← hl]
                                  exact readNum_showInt _ _ (by simp [isdigit])) ?_
      obtain ⟨c, q, he, hq⟩ := showInt_head d ([120] ++ r)
      have hp := isdigit_plain c hq
      intro x hx
      rw [he] at hx
      simp only [List.head?_cons, Option.some.injEq] at hx
      subst hx
      exact ⟨hp.2.2.2.2.2.2.2.1, hp.2.2.2.2.2.2.2.2.1, hp.2.2.2.2.2.2.2.2.2.1⟩
    simp only [hv, Outcome.bind_ok]
  · intro x hx
    rcases hc x hx with h | rfl | rfl
    · exact (isdigit_plain x (.inl h)).2.1
    · decide
    · decide

/-- A 1x2 view of an array of vars: two strings. -/
def words : Arr Val := ⟨[.chars [97], .chars [98]], some [0, 1, 2, 2, 1]⟩

-- "[\n  null, null\n]"
example : view ⟨[.chars [97], .chars [98]], none⟩ [((1 : Nat) : Int), ((2 : Nat) : Int)] 0 = .ok words ∧ Rows words 1 2 [.chars [97], .chars [98]] ∧ (∀ x ∈ [Val.chars [97], .chars [98]], x.type = 0) ∧
    formatView .var 0 words = .ok [91, 10, 32, 32, 110, 117, 108, 108, 44, 32, 110, 117, 108, 108, 10, 93] := by
  refine ⟨rfl, ⟨rfl, ?_⟩, by simp [Val.type], rfl⟩
  intro i j x hi hj hx
  obtain rfl : i = 0 := by omega
  obtain rfl | rfl : j = 0 ∨ j = 1 := by omega
  all_goals
    simp only [List.getElem?_cons_succ, List.getElem?_cons_zero, Nat.zero_mul, Nat.zero_add, Option.some.injEq] at hx
    subst hx
    rfl

/-- A 1x2 view of an array of vars: two numbers. -/
def numbers : Arr Val := ⟨[.int 1, .int 2], some [0, 1, 2, 2, 1]⟩

example : view ⟨[.int 1, .int 2], none⟩ [((1 : Nat) : Int), ((2 : Nat) : Int)] 0 = .ok numbers ∧ View.get numbers 0 [0] = .ok (.int 1) ∧ Val.type (.int 1) ≠ 0 :=
  ⟨rfl, rfl, by decide⟩

-- "2x2x2 tensor:\n[\n  0, 1,\n  2, 3\n]\n[..."
example : view eight [2, 2, 2] 0 = .ok cube ∧ JsonSpec.Fits 2 ∧ ∃ text, formatView .int 0 cube = .ok ([50, 120, 50, 120, 50, 32, 116] ++ text) :=
  ⟨rfl, by decide, _, rfl⟩

theorem showNat_text (n : Nat) : ∃ ds, Digits ds ∧ showNat n = digitText ds ∧ n = number ds := by
  by_cases h : n = 0
  · exact ⟨[0], ⟨by simp, by decide⟩, by subst h; decide, by subst h; decide⟩
  · have hb : ∀ d ∈ (Nat.digits 10 n).reverse, d < 10 := fun d hd => Nat.digits_lt_base (by omega) (List.mem_reverse.1 hd)
    have he : showNat n = digitText (Nat.digits 10 n).reverse := by unfold showNat digitText; rw [if_neg h]
    refine ⟨(Nat.digits 10 n).reverse, ⟨by simp [Nat.digits_ne_nil_iff_ne_zero, h], hb⟩, he, ?_⟩
    rw [← digitsVal_text _ hb, ← he, digitsVal_showNat]

theorem showInt_numeral (i : Int) : Numeral (showInt i) i := by
  obtain ⟨ds, h1, h2, h3⟩ := showNat_text i.natAbs
  refine ⟨ds, h1, ?_⟩
  unfold showInt
  split
  · exact .inr ⟨by rw [h2], by omega⟩
  · exact .inl ⟨h2, by omega⟩

theorem integer_text {x : Val} (h : IsInteger x) : ∃ i, format 0 x = showInt i ∧ Fits i := by
  cases x with
  | int i => exact ⟨i.toInt, by rw [format], by have := @BitVec.toInt_lt 32 i; have := @BitVec.le_toInt 32 i; unfold JsonSpec.Fits; omega⟩
  | long l => exact ⟨l.toInt, by rw [format], @BitVec.le_toInt 64 l, @BitVec.toInt_lt 64 l⟩
  | _ => exact absurd h (by simp [IsInteger])

theorem line_text {kind : Kind} {a : Arr Val} {s : Int} : ∀ (xs : List Val) (i : Nat), (i : Int) + xs.length = s → Items kind a i xs → lineLoop kind a s i xs.length = .ok (listText (xs.map (format 0)))
  | [], _, _, _ => rfl
  | [x], i, hs, h => by
    have h0 := h 0 x rfl
    simp only [List.length_cons, List.length_nil] at hs ⊢
    simp only [Nat.cast_zero, Int.add_zero] at h0
    simp only [lineLoop, h0, Outcome.bind_ok, List.map_cons, List.map_nil, listText]
    rw [if_neg (by omega)]
    simp
  | x :: y :: xs, i, hs, h => by
    have h0 := h 0 x rfl
    have ih := line_text (kind := kind) (a := a) (s := s) (y :: xs) (i + 1) (by simp only [List.length_cons] at hs ⊢; omega) (by simpa using h.tail.2)
    rw [Nat.cast_succ i] at ih
    simp only [Nat.cast_zero, Int.add_zero] at h0
    rw [List.length_cons, lineLoop, h0, Outcome.bind_ok, ih, Outcome.bind_ok]
    simp only [List.length_cons] at hs
    rw [if_pos (by omega)]
    simp only [List.map_cons, listText]

/-- C127: a row of numbers, a view of one dimension, is printed without the line breaks of a matrix, and that text is rejected. -/
theorem line_rejected {kind : Kind} (hk' : kind = .int ∨ kind = .long) {a v : Arr Val} {off : Int} {xs : List Val} (hv : view a [(xs.length : Int)] off = .ok v) (hne : xs ≠ [])
    (hx : ∀ (i : Nat) (x : Val), xs[i]? = some x → View.get v i [] = .ok x ∧ IsInteger x) (ind : Nat) (n : Nat) (hn : 2 ≤ n) :
    ∃ text, formatView kind ind v = .ok text ∧ ∀ fuel, 2 * text.length + 1 ≤ fuel → ∃ e, parse n fuel text = .thrown e := by
  obtain ⟨b, hb, -, hs, -, -⟩ := view_shape hv
  have hi : Items kind v (0 : Nat) xs := by
    intro k x hk
    have hlt := (List.getElem?_eq_some_iff.1 hk).1
    have h1 := hs.index_ok k [] [] ⟨by omega, by omega, trivial⟩
    have h2 := (hx k x hk).1
    unfold View.get at h2
    rw [List.nil_append] at h1
    simp only [h1, Outcome.bind_ok, pos, List.prod_nil, Int.mul_one, Int.add_zero] at h2
    rw [Nat.cast_zero, Int.zero_add]
    have h3 : item v k = .ok x := by
      unfold item
      rw [if_neg (by omega), hs.size, Outcome.bind_ok, if_neg (by simp; omega)]
      exact h2
    unfold entry
    rw [h3, Outcome.bind_ok]
    rcases hk' with rfl | rfl <;> rfl
  have ht := line_text (s := (xs.length : Int)) xs 0 (by simp) hi
  choose f hf using fun x : {x // IsInteger x} => integer_text x.2
  have hint : ∀ x ∈ xs, IsInteger x := by
    intro x hm
    obtain ⟨i, h⟩ := List.mem_iff_getElem?.1 hm
    exact (hx i x h).2
  let ts : List (Bytes × Int) := xs.attach.map fun x => (showInt (f ⟨x.1, hint x.1 x.2⟩), f ⟨x.1, hint x.1 x.2⟩)
  have hts : ts.map Prod.fst = xs.map (format 0) := by
    rw [List.map_map]
    conv_rhs => rw [← List.attach_map_subtype_val xs, List.map_map]
    exact List.map_congr_left fun x _ => (hf ⟨x.1, hint x.1 x.2⟩).1.symm
  refine ⟨91 :: listText (xs.map (format 0)) ++ [93], ?_, ?_⟩
  · have hd := hs.dim
    simp only [List.length_cons, List.length_nil] at hd
    unfold formatView
    rw [Nat.cast_zero] at ht
    simp [hd, hs.size, ht]
  · rw [← hts]
    refine fun fuel hf' => array_text_rejected ts ?_ ?_ n hn fuel hf'
    · intro p hp
      obtain ⟨x, -, rfl⟩ := List.mem_map.1 hp
      exact ⟨showInt_numeral _, (hf _).2⟩
    · simpa [ts] using hne

-- "[2, 3, 4]"
example : view eight [(([.int 2, .int 3, .int 4] : List Val).length : Int)] 2 = .ok three ∧ formatView .int 0 three = .ok [91, 50, 44, 32, 51, 44, 32, 52, 93] ∧
    ∀ (i : Nat) (x : Val), [.int 2, .int 3, .int 4][i]? = some x → View.get three i [] = .ok x ∧ IsInteger x := by
  refine ⟨rfl, rfl, ?_⟩
  intro i x hx
  match i, hx with
  | 0, hx => cases hx; exact ⟨rfl, trivial⟩
  | 1, hx => cases hx; exact ⟨rfl, trivial⟩
  | 2, hx => cases hx; exact ⟨rfl, trivial⟩

#print axioms matrix_round_trip_partial
#print axioms matrix_of_arrays_lost
#print axioms matrix_of_vars_undefined
#print axioms matrix_of_cdouble_rejected
#print axioms tensor_read_as_number
#print axioms line_rejected

end Libube.Json

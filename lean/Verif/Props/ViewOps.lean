import Verif.Model.ViewOps
import Verif.Props.View
import Verif.Lemmas.AllocSize

/-! # C135: push, pop and shift on views

`W.of v.data ip k` is the view `v` with description `ip` and room for `k` more entries. -/

namespace Libube.View

open Libube ViewSpec

theorem cell_of {data : List α} {cells : List (Option Int)} {n : Int} {i : Nat} {x : Int} (h : cells[i]? = some (some x)) :
    (⟨data, cells, n⟩ : W α).cell i = .ok x := by
  unfold W.cell; rw [show (⟨data, cells, n⟩ : W α).cells = cells from rfl, h]

/-- A description that begins with offset, first shape and first stride. -/
theorem W.size_of {data : List α} {cells : List (Option Int)} {n : Int} {d p : Int} (h1 : cells[1]? = some (some d)) (h2 : cells[2]? = some (some p))
    (hn : 3 ≤ n) : (⟨data, cells, n⟩ : W α).size = cint (p * d) := by
  unfold W.size W.stride W.shape
  simp only [show (0 : Int) * 2 + 2 = 2 from rfl, show (0 : Int) * 2 + 1 = 1 from rfl]
  rw [if_neg (by omega), show (2 : Int).toNat = 2 from rfl, cell_of h2, Outcome.bind_ok, if_neg (by omega), show (1 : Int).toNat = 1 from rfl,
    cell_of h1, Outcome.bind_ok]

theorem W.size_short {data : List α} {cells : List (Option Int)} {n : Int} (hn : n < 3) :
    (⟨data, cells, n⟩ : W α).size = .thrown (.rangeError "View::stride(): dimension out of bounds") := by
  unfold W.size W.stride
  rw [if_pos (by right; show (0 : Int) * 2 + 2 ≥ n; omega)]
  rfl

/-- What a new view looks like. -/
theorem of_view {a v : Arr α} {sh : List Int} {off : Int} (h : view a sh off = .ok v) :
    ∃ o d ds ip, offset v = .ok o ∧ sh = d :: ds ∧ v.ip = some ip ∧ ip = o :: d :: ds.prod :: flat ds ∧ v.data = a.data ∧
      sh.prod + o ≤ a.data.length ∧ -2 ^ 31 ≤ o ∧ -2 ^ 31 ≤ sh.prod ∧ sh.prod < 2 ^ 31 := by
  obtain ⟨b, -, h2, h3, h4, h5⟩ := view_shape h
  obtain ⟨ip, hip⟩ := view_ip h
  generalize b + off = o at h3 h4 h5
  have ho := h3.offset
  cases h3 with
  | view _ _ hi hf hn =>
    cases sh with
    | nil => exact absurd rfl hn
    | cons d ds =>
      exact ⟨o, d, ds, _, ho, rfl, hi, rfl, h2, h4, h5, hf.1.1, hf.1.2⟩
  | plain hi hl => rw [hip] at hi; cases hi

theorem resize_ok (w : W α) (n : Int) (h0 : 0 ≤ n) (h1 : n ≤ 2 ^ 30) :
    ∃ k, w.resize n = .ok ⟨w.data, w.cells ++ List.replicate k none, n⟩ := by
  unfold W.resize
  rw [if_neg (by omega), Alloc.allocSize_eq n h0 h1, Outcome.bind_ok]
  exact ⟨_, rfl⟩

/-- What is the same in all three: the view as it is before the call. -/
theorem before {a v : Arr α} {sh : List Int} {off o : Int} {ip : List Int} (h : view a sh off = .ok v) (hip : v.ip = some ip) (ho : offset v = .ok o) (k : Nat) :
    ∃ cells, W.of v.data ip k = ⟨a.data, cells, 2 * sh.length + 1⟩ ∧ cells[0]? = some (some o) ∧ (∃ d p, cells[1]? = some (some d) ∧ cells[2]? = some (some p) ∧ p * d = sh.prod) ∧
      sh.prod + o ≤ a.data.length ∧ -2 ^ 31 ≤ o ∧ cells = ip.map some ++ List.replicate k none ∧ ip.length = 2 * sh.length + 1 ∧ 1 ≤ sh.length := by
  obtain ⟨o', d, ds, ip', h1, rfl, h3, rfl, h5, h6, h7, -⟩ := of_view h
  cases ho.symm.trans h1
  cases hip.symm.trans h3
  refine ⟨(o :: d :: ds.prod :: flat ds).map some ++ List.replicate k none, ?_, rfl, ⟨d, ds.prod, rfl, rfl, ?_⟩, h6, h7, rfl, ?_, ?_⟩
  · unfold W.of
    rw [h5]
    congr 1
    simp only [List.length_cons, flat_length]
    push_cast
    ring
  · rw [List.prod_cons, mul_comm]
  · simp only [List.length_cons, flat_length]; omega
  · simp

theorem grown {cells : List (Option Int)} {k i : Nat} {x : Option Int} (h : cells[i]? = some x) : (cells ++ List.replicate k none)[i]? = some x := by
  rw [List.getElem?_append_left (List.getElem?_eq_some_iff.1 h).1, h]

theorem at_of {data : List α} {cells : List (Option Int)} {n o i : Int} (h : cells[0]? = some (some o)) (hi : -2 ^ 31 ≤ i + o ∧ i + o < 2 ^ 31) :
    (⟨data, cells, n⟩ : W α).at i = load data (i + o) := by
  unfold W.at
  rw [cell_of h, Outcome.bind_ok, cint_ok hi, Outcome.bind_ok]

/-- C135 is false for `push` on a view behind which the array goes on: what is pushed overwrites the element of the array after the view,
    and the view has the size it had. -/
theorem push_view_behind {a v : Arr α} {sh : List Int} {off o : Int} {ip : List Int} (h : view a sh off = .ok v) (hip : v.ip = some ip) (ho : offset v = .ok o)
    (k : Nat) (x : α) (h0 : 0 ≤ o) (h2 : 2 ≤ sh.prod) (hs : sh.prod < 2 ^ 30) (hl : o + sh.prod < a.data.length) (hd : (a.data.length : Int) < 2 ^ 31) :
    ∃ w, (W.of v.data ip k).push x = .ok w ∧ w.data = a.data.set (o + sh.prod).toNat x ∧ w.size = .ok sh.prod ∧ w.dim = sh.prod.tdiv 2 := by
  obtain ⟨cells, e, c0, ⟨d, p, c1, c2, hp⟩, -, -, -, -, hsh⟩ := before h hip ho k
  obtain ⟨j, hj⟩ := resize_ok (⟨a.data, cells, 2 * sh.length + 1⟩ : W α) (sh.prod + 1) (by omega) (by omega)
  refine ⟨⟨a.data.set (o + sh.prod).toNat x, cells ++ List.replicate j none, sh.prod + 1⟩, ?_, rfl, ?_, ?_⟩
  · rw [e, W.push, W.size_of c1 c2 (by omega), hp, cint_ok ⟨by omega, by omega⟩, Outcome.bind_ok, if_neg (by omega), cint_ok ⟨by omega, by omega⟩, Outcome.bind_ok, hj,
      Outcome.bind_ok, cell_of (grown c0), Outcome.bind_ok, cint_ok ⟨by omega, by omega⟩, Outcome.bind_ok]
    unfold store
    rw [if_neg (by omega), if_pos (by simp only; omega), Outcome.bind_ok, Int.add_comm o]
  · rw [W.size_of (grown c1) (grown c2) (by omega), hp, cint_ok ⟨by omega, by omega⟩]
  · unfold W.dim; simp

/-- C135 is false for `push` on a view that ends with the array, as that of the whole of it: memory outside the array is written to. -/
theorem push_view_undefined {a v : Arr α} {sh : List Int} {off o : Int} {ip : List Int} (h : view a sh off = .ok v) (hip : v.ip = some ip) (ho : offset v = .ok o)
    (k : Nat) (x : α) (h0 : 0 ≤ o) (h2 : 0 ≤ sh.prod) (hs : sh.prod < 2 ^ 30) (hl : o + sh.prod = a.data.length) (hd : (a.data.length : Int) < 2 ^ 31) :
    (W.of v.data ip k).push x = .ub .outOfBounds := by
  obtain ⟨cells, e, c0, ⟨d, p, c1, c2, hp⟩, -, -, -, -, hsh⟩ := before h hip ho k
  obtain ⟨j, hj⟩ := resize_ok (⟨a.data, cells, 2 * sh.length + 1⟩ : W α) (sh.prod + 1) (by omega) (by omega)
  rw [e, W.push, W.size_of c1 c2 (by omega), hp, cint_ok ⟨by omega, by omega⟩, Outcome.bind_ok, if_neg (by omega), cint_ok ⟨by omega, by omega⟩, Outcome.bind_ok, hj,
    Outcome.bind_ok, cell_of (grown c0), Outcome.bind_ok, cint_ok ⟨by omega, by omega⟩, Outcome.bind_ok]
  unfold store
  rw [if_neg (by omega), if_neg (by simp only; omega)]
  rfl

/-- C135 for the result of `pop` and the elements: the last element is returned and no element is changed.  Missing for the full claim: the size, which stays
    the same (this theorem) or can no longer be asked for (`pop_small_view`), and the other operations (`push_view_behind`,
    `push_view_undefined`, `shift_view_offset`). -/
theorem pop_view_partial {a v : Arr α} {sh : List Int} {off o : Int} {ip : List Int} (h : view a sh off = .ok v) (hip : v.ip = some ip) (ho : offset v = .ok o)
    (k : Nat) (h0 : 0 ≤ o) (h2 : 4 ≤ sh.prod) (hs : sh.prod < 2 ^ 30) (hd : (a.data.length : Int) < 2 ^ 31) :
    ∃ x w, a.data[(o + sh.prod - 1).toNat]? = some x ∧ (W.of v.data ip k).pop = .ok (x, w) ∧ w.data = a.data ∧ w.size = .ok sh.prod ∧ w.dim = (sh.prod - 2).tdiv 2 := by
  obtain ⟨cells, e, c0, ⟨d, p, c1, c2, hp⟩, hl, -, -, -, hsh⟩ := before h hip ho k
  obtain ⟨j, hj⟩ := resize_ok (⟨a.data, cells, 2 * sh.length + 1⟩ : W α) (sh.prod - 1) (by omega) (by omega)
  obtain ⟨x, hx, hlx⟩ := load_inside (data := a.data) (i := sh.prod - 1 + o) (by omega) (by omega)
  refine ⟨x, ⟨a.data, cells ++ List.replicate j none, sh.prod - 1⟩, ?_, ?_, rfl, ?_, ?_⟩
  · rw [← hx]; congr 2; omega
  · rw [e, W.pop, W.size_of c1 c2 (by omega), hp, cint_ok ⟨by omega, by omega⟩, Outcome.bind_ok, cint_ok ⟨by omega, by omega⟩, Outcome.bind_ok, hj,
      Outcome.bind_ok, at_of (grown c0) ⟨by omega, by omega⟩, hlx, Outcome.bind_ok]
  · rw [W.size_of (grown c1) (grown c2) (by omega), hp, cint_ok ⟨by omega, by omega⟩]
  · unfold W.dim
    rw [show sh.prod - 1 - 1 = sh.prod - 2 by omega]

/-- After `pop` the size of a view of at most three elements cannot be asked for. -/
theorem pop_small_view {a v : Arr α} {sh : List Int} {off o : Int} {ip : List Int} (h : view a sh off = .ok v) (hip : v.ip = some ip) (ho : offset v = .ok o)
    (k : Nat) (h0 : 0 ≤ o) (h1 : 1 ≤ sh.prod) (h2 : sh.prod ≤ 3) (hd : (a.data.length : Int) < 2 ^ 31) :
    ∃ x w, (W.of v.data ip k).pop = .ok (x, w) ∧ w.size = .thrown (.rangeError "View::stride(): dimension out of bounds") := by
  obtain ⟨cells, e, c0, ⟨d, p, c1, c2, hp⟩, hl, -, -, -, hsh⟩ := before h hip ho k
  obtain ⟨j, hj⟩ := resize_ok (⟨a.data, cells, 2 * sh.length + 1⟩ : W α) (sh.prod - 1) (by omega) (by omega)
  obtain ⟨x, hx, hlx⟩ := load_inside (data := a.data) (i := sh.prod - 1 + o) (by omega) (by omega)
  refine ⟨x, ⟨a.data, cells ++ List.replicate j none, sh.prod - 1⟩, ?_, ?_⟩
  · rw [e, W.pop, W.size_of c1 c2 (by omega), hp, cint_ok ⟨by omega, by omega⟩, Outcome.bind_ok, cint_ok ⟨by omega, by omega⟩, Outcome.bind_ok, hj,
      Outcome.bind_ok, at_of (grown c0) ⟨by omega, by omega⟩, hlx, Outcome.bind_ok]
  · exact W.size_short (by omega)

/-- After `push` on a view, or `pop`, the number of dimensions is half the size; the shape of those that were not there before has never been written. -/
theorem push_view_shape {a v : Arr α} {sh : List Int} {off o : Int} {ip : List Int} (h : view a sh off = .ok v) (hip : v.ip = some ip) (ho : offset v = .ok o)
    (k : Nat) (x : α) (h0 : 0 ≤ o) (h2 : 2 ≤ sh.prod) (hs : sh.prod < 2 ^ 30) (hl : o + sh.prod < a.data.length) (hd : (a.data.length : Int) < 2 ^ 31)
    (w : W α) (hw : (W.of v.data ip k).push x = .ok w) (i : Int) (hi : sh.length ≤ i) (hi' : i < w.dim) : w.shape i = .ub .uninit ∨ w.shape i = .ub .outOfBounds := by
  obtain ⟨cells, e, c0, ⟨d, p, c1, c2, hp⟩, -, -, ec, eip, hsh⟩ := before h hip ho k
  obtain ⟨j, hj⟩ := resize_ok (⟨a.data, cells, 2 * sh.length + 1⟩ : W α) (sh.prod + 1) (by omega) (by omega)
  have hw' : (W.of v.data ip k).push x = .ok ⟨a.data.set (o + sh.prod).toNat x, cells ++ List.replicate j none, sh.prod + 1⟩ := by
    rw [e, W.push, W.size_of c1 c2 (by omega), hp, cint_ok ⟨by omega, by omega⟩, Outcome.bind_ok, if_neg (by omega), cint_ok ⟨by omega, by omega⟩, Outcome.bind_ok, hj,
      Outcome.bind_ok, cell_of (grown c0), Outcome.bind_ok, cint_ok ⟨by omega, by omega⟩, Outcome.bind_ok]
    unfold store
    rw [if_neg (by omega), if_pos (by simp only; omega), Outcome.bind_ok, Int.add_comm o]
  cases hw.symm.trans hw'
  have hdim : i < sh.prod / 2 := by
    have : (⟨a.data.set (o + sh.prod).toNat x, cells ++ List.replicate j none, sh.prod + 1⟩ : W α).dim = sh.prod / 2 := by
      unfold W.dim
      simp only [add_sub_cancel_right]
      exact Int.tdiv_eq_ediv_of_nonneg (by omega)
    rw [this] at hi'
    exact hi'
  unfold W.shape
  simp only
  rw [if_neg (by omega)]
  unfold W.cell
  simp only
  have hlen : ip.length ≤ (i * 2 + 1).toNat := by omega
  rw [ec, List.append_assoc, List.getElem?_append_right (by simpa using hlen), ← List.replicate_add, List.getElem?_replicate]
  split <;> rename_i hc <;> split at hc
  · cases hc
  · cases hc
  · exact Or.inl rfl
  · cases hc
  · cases hc
  · exact Or.inr rfl

/-- C135 is false for `shift` on a view: what is returned is the offset of the view. -/
theorem shift_view_offset {a v : Arr α} {sh : List Int} {off o : Int} {ip : List Int} (h : view a sh off = .ok v) (hip : v.ip = some ip) (ho : offset v = .ok o)
    (k : Nat) (hs : sh.length < 2 ^ 29) :
    ∃ w d, (W.of v.data ip k).shift = .ok (o, w) ∧ w.data = a.data ∧ sh.head? = some d ∧ w.cell 0 = .ok d := by
  obtain ⟨o', d, ds, ip', h1, rfl, h3, rfl, h5, -⟩ := of_view h
  cases ho.symm.trans h1
  cases hip.symm.trans h3
  unfold W.shift
  have c0 : (W.of v.data (o :: d :: ds.prod :: flat ds) k).cell 0 = .ok o := rfl
  rw [c0, Outcome.bind_ok]
  have hn : (W.of v.data (o :: d :: ds.prod :: flat ds) k).n - 1 = (2 * ds.length + 2 : Nat) := by
    unfold W.of
    simp only [List.length_cons, flat_length]
    push_cast
    ring
  simp only [List.length_cons] at hs
  rw [hn]
  obtain ⟨j, hj⟩ := resize_ok ({W.of v.data (o :: d :: ds.prod :: flat ds) k with
    cells := ((W.of v.data (o :: d :: ds.prod :: flat ds) k).cells.drop 1).take ((2 * ds.length + 2 : Nat) : Int).toNat ++
      (W.of v.data (o :: d :: ds.prod :: flat ds) k).cells.drop ((2 * ds.length + 2 : Nat) : Int).toNat} : W α) ((2 * ds.length + 2 : Nat) : Int) (by omega) (by omega)
  simp only
  rw [hj, Outcome.bind_ok]
  exact ⟨_, d, rfl, h5, rfl, rfl⟩

/-! ## A case that meets the hypotheses: the first four of six elements as a matrix of two rows -/

def tens : Arr Int := ⟨[10, 11, 12, 13, 14, 15], none⟩

example : ∃ v ip, view tens [2, 2] 0 = .ok v ∧ v.ip = some ip ∧ offset v = .ok 0 ∧ ip = [0, 2, 2, 2, 1] ∧ (0 : Int) ≤ 0 ∧ 4 ≤ ([2, 2] : List Int).prod ∧
    ([2, 2] : List Int).prod < 2 ^ 30 ∧ (0 : Int) + ([2, 2] : List Int).prod < tens.data.length ∧ (tens.data.length : Int) < 2 ^ 31 := by
  exact ⟨_, _, by rfl, rfl, by rfl, by rfl, by decide, by decide, by decide, by decide, by decide⟩

example : ∃ v ip, view tens [2, 2] 0 = .ok v ∧ v.ip = some ip ∧ ∃ w, (W.of v.data ip 3).push 99 = .ok w ∧ w.data = [10, 11, 12, 13, 99, 15] ∧ w.size = .ok 4 := by
  obtain ⟨w, h1, h2, h3, -⟩ := push_view_behind (a := tens) (sh := [2, 2]) (off := 0) (o := 0) (by rfl) rfl (by rfl) 3 99 (by decide) (by decide) (by decide) (by decide)
    (by decide)
  exact ⟨_, _, by rfl, rfl, w, h1, h2, h3⟩

end Libube.View

import Verif.Lemmas.Roots
import Mathlib.Data.Fintype.Defs
import Mathlib.Data.Finset.Filter
import Mathlib.Algebra.Field.Rat

/-! # Properties of roots (C60)

Arithmetic is that of a field `K`, and eigenvalues and roots lie in a field `L` containing it. -/

namespace Libube.Roots

open View Transpose RowsSpec ViewSpec RootsSpec

/-- C60: for degree 2 and more, the eigenvalues of the matrix handed to the solver are the roots.
    Missing for the full claim: degree 1, for which it is false (`roots_linear_throws`). -/
theorem roots_companion_partial [Field K] [Field L] (f : K →+* L) (p : Arr K) (o n : Nat) (hp : Shaped p o [((n + 1 : Nat) : Int)])
    (hn : 2 ≤ n) (hb : n * n < 2147483648) (x : Nat → K) (hx : ∀ k, k ≤ n → p.data[o + k]? = some (x k)) (h0 : x 0 ≠ 0) :
    ∃ a M, companion (n : Int) p = .ok a ∧ ColumnMajor a.data n M ∧ ∀ z, Eigenvalue f n M z ↔ value f n x z = 0 := by
  obtain ⟨hs, hl, hm⟩ := hp.shape
  rw [List.prod_singleton] at hl
  obtain ⟨a, e, h⟩ := companion_eq hn hb hs (by omega) (by omega) hx
  refine ⟨a, fun i j => comp x j i, e, ⟨h.len, fun i hi j hj => ?_⟩, comp_eigen f h0 (by omega)⟩
  rw [Nat.add_comm, Nat.mul_comm]
  exact h.elem j hj i hi

/-- C60 end to end: with a solver that finds the eigenvalues, what is returned are the roots.
    Missing: as for `roots_companion_partial`. -/
theorem roots_found_partial [Field K] [Field L] (f : K →+* L) (mk : K × K → L) (geev : Nat → List K → List (K × K))
    (hg : Solves f mk geev) (p : Arr K) (o n : Nat) (hp : Shaped p o [((n + 1 : Nat) : Int)])
    (hn : 2 ≤ n) (hb : n * n < 2147483648) (x : Nat → K) (hx : ∀ k, k ≤ n → p.data[o + k]? = some (x k)) (h0 : x 0 ≠ 0) :
    ∃ zs, rootsVector geev (n : Int) p = .ok zs ∧ ∀ z, (∃ w ∈ zs, mk w = z) ↔ value f n x z = 0 := by
  obtain ⟨a, M, e, hM, hz⟩ := roots_companion_partial f p o n hp hn hb x hx h0
  refine ⟨geev n a.data, ?_, fun z => (hg n a.data M hM z).trans (hz z)⟩
  unfold rootsVector
  rw [e]
  rfl

/-- `2 X² - 6 X + 4`, the last three elements of a longer array. -/
def quad : Arr Rat := ⟨[7, 2, -6, 4], some [1, 3, 1]⟩
example : Shaped quad 1 [((2 + 1 : Nat) : Int)] ∧ companion 2 quad = .ok ⟨[-6 / 2 * -1, 4 / 2 * -1, 1, 0], some [0, 2, 2, 2, 1]⟩ :=
  ⟨.view 1 [3] (by decide) (by decide), rfl⟩

/-- A solver as supposed by `roots_found_partial` exists, for example over a finite field. -/
example [Field K] [Fintype K] : ∃ geev, Solves (RingHom.id K) Prod.fst geev := by
  classical
  refine ⟨fun n data => (Finset.univ.filter fun w : K × K =>
    Eigenvalue (RingHom.id K) n (fun i j => data.getD (i + n * j) 0) w.1).toList, fun n data M hM z => ?_⟩
  have hc : ∀ i, i < n → ∀ j, j < n → data.getD (i + n * j) 0 = M i j := by
    intro i hi j hj
    rw [List.getD_eq_getElem?_getD, hM.2 i hi j hj]
    rfl
  have key : ∀ w : K, Eigenvalue (RingHom.id K) n (fun i j => data.getD (i + n * j) 0) w ↔ Eigenvalue (RingHom.id K) n M w := by
    intro w
    refine exists_congr fun v => and_congr_right fun _ => forall_congr' fun i => imp_congr_right fun hi => ?_
    have e : ∑ j ∈ Finset.range n, (RingHom.id K) (data.getD (i + n * j) 0) * v j = ∑ j ∈ Finset.range n, (RingHom.id K) (M i j) * v j :=
      Finset.sum_congr rfl fun j hj => by rw [hc i hi j (Finset.mem_range.mp hj)]
    exact Eq.congr_left e
  rw [← key]
  simp

/-- C60 fails for degree 1 (and 0): an array of one element is not made, and `roots` throws. -/
theorem roots_linear_throws [Field K] (geev : Nat → List K → List (K × K)) (p : Arr K) (o n : Nat)
    (hp : Shaped p o [((n + 1 : Nat) : Int)]) (hn : n ≤ 1) :
    rootsVector geev (n : Int) p = .thrown (.error "var::view: Input not an array") := by
  obtain ⟨hs, hl, hm⟩ := hp.shape
  rw [List.prod_singleton] at hl
  have hsq : n * n ≤ 1 := by
    calc n * n ≤ 1 * 1 := Nat.mul_le_mul hn hn
      _ = 1 := rfl
  obtain ⟨y, _, hy⟩ := load_inside (data := p.data) (i := (o : Int)) (by omega) (by omega)
  unfold rootsVector companion locate
  rw [← Nat.cast_mul, cint_ok (by omega), Outcome.bind_ok, hs.offset, Outcome.bind_ok, zero_add, cint_ok (by omega), Outcome.bind_ok,
    hy, Outcome.bind_ok]
  rw [show fillArr ((n * n : Nat) : Int) y = none by unfold fillArr; rw [if_neg (by omega)]]
  rfl

example : Shaped (⟨[2, -6], none⟩ : Arr Rat) 0 [((1 + 1 : Nat) : Int)] := .plain rfl (by decide)

#print axioms roots_companion_partial
#print axioms roots_found_partial
#print axioms roots_linear_throws

end Libube.Roots

import Verif.Spec.Arith
import Verif.Lemmas.Transpose

/-! # Lemmas about array arithmetic -/

namespace Libube.Arith

open View Transpose ArithSpec

theorem _root_.Libube.ArithSpec.IsArr.shape {m : Mem α} {a : Ref} {o sh} (h : IsArr m a o sh) :
    ∃ d, m[a.heap]? = some d ∧ arrOf m a = .ok ⟨d, a.ip⟩ ∧ HasShape (⟨d, a.ip⟩ : Arr α) o sh ∧
      (d.length : Int) < 2 ^ 31 ∧ sh.prod + o ≤ d.length := by
  cases h with
  | plain d hd hl hi =>
    refine ⟨d, hd, ?_, ?_, hl, by simp⟩
    · unfold arrOf heapOf; rw [hd]; rfl
    · exact .plain hi hl
  | view d hd hl o sh hv =>
    obtain ⟨b, hb, _, hs, hp, _⟩ := view_shape hv
    have : (0 : Int) = b := by
      have : Outcome.ok (0 : Int) = Outcome.ok b := hb
      cases this; rfl
    subst this
    rw [Int.zero_add] at hs hp
    refine ⟨d, hd, ?_, hs, hl, hp⟩
    unfold arrOf heapOf; rw [hd]; rfl

theorem heapOf_some {m : Mem α} {h : Nat} {d : List α} (hd : m[h]? = some d) : heapOf m h = .ok d := by
  unfold heapOf; rw [hd]

theorem loadAt_at {m : Mem α} {h p : Nat} {x : α} (hx : At m h p x) : loadAt m h p = .ok x := by
  obtain ⟨D, h1, h2⟩ := hx
  unfold loadAt
  rw [heapOf_some h1]
  unfold load
  simp [h2]

theorem loadAt_congr {m m' : Mem α} {h p : Nat} {D D' : List α} (h1 : m[h]? = some D) (h2 : m'[h]? = some D')
    (e : D'[p]? = D[p]?) : loadAt m' h p = loadAt m h p := by
  unfold loadAt
  rw [heapOf_some h1, heapOf_some h2]
  unfold load
  simp [e]

/-- Nothing is updated at first. -/
theorem _root_.Libube.ArithSpec.Updated.zero {m : Mem α} {h p : Nat} {D : List α} (hD : m[h]? = some D) (v : Nat → α) :
    Updated m m h p 0 v :=
  ⟨fun _ _ => rfl, D, D, hD, hD, rfl, fun i hi => absurd hi (Nat.not_lt_zero i), fun _ _ => rfl⟩

theorem _root_.Libube.ArithSpec.Updated.load {m m' : Mem α} {h p n : Nat} {v : Nat → α} (u : Updated m m' h p n v) {k q : Nat} {x : α}
    (hx : At m k q x) (hk : k ≠ h ∨ q < p ∨ p + n ≤ q) : loadAt m' k q = .ok x := by
  have hx' := loadAt_at hx
  obtain ⟨D0, h1, h2⟩ := hx
  rw [← hx']
  by_cases e : k = h
  · subst e
    obtain ⟨_, D, D', g1, g2, g3, g4, g5⟩ := u
    exact loadAt_congr g1 g2 (g5 q (by omega))
  · exact loadAt_congr h1 ((u.1 k e).trans h1) rfl

theorem _root_.Libube.ArithSpec.Updated.store {m m' : Mem α} {h p n : Nat} {v : Nat → α} (u : Updated m m' h p n v) {x : α}
    (hx : At m h (p + n) x) : ∃ m'', storeAt m' h ((p + n : Nat) : Int) (v n) = .ok m'' ∧ Updated m m'' h p (n + 1) v := by
  obtain ⟨u1, D, D', g1, g2, g3, g4, g5⟩ := u
  obtain ⟨D0, h1, h2⟩ := hx
  cases g1.symm.trans h1
  have hlen : p + n < D.length := (List.getElem?_eq_some_iff.mp h2).1
  refine ⟨m'.set h (D'.set (p + n) (v n)), ?_, ?_, D, D'.set (p + n) (v n), g1, ?_, by simp [g3], ?_, ?_⟩
  · unfold storeAt
    rw [heapOf_some g2]
    simp only [Outcome.bind_ok]
    rw [show Transpose.store D' ((p + n : Nat) : Int) (v n) = .ok (D'.set (p + n) (v n)) by
      unfold Transpose.store; rw [if_pos (by omega)]; rfl]
    rfl
  · intro k hk
    rw [List.getElem?_set_ne (Ne.symm hk)]
    exact u1 k hk
  · have : h < m'.length := (List.getElem?_eq_some_iff.mp g2).1
    rw [List.getElem?_set_self this]
  · intro i hi
    by_cases e : i = n
    · subst e; rw [List.getElem?_set_self (by omega)]
    · rw [List.getElem?_set_ne (by omega)]; exact g4 i (by omega)
  · intro k hk
    rw [List.getElem?_set_ne (by omega)]
    exact g5 k (by omega)

/-- The BLAS loop on the block that starts at flat index `base`. -/
theorem vecLoop_eq {m : Mem α} {f : α → α → α} {x y : Nat → α} {ha pa hb h p : Nat} {q : Nat → Nat} {N : Nat}
    (hx : ∀ i, i < N → At m ha (pa + i) (x i) ∧ (ha ≠ h ∨ pa + i < p ∨ p + i ≤ pa + i))
    (hy : ∀ i, i < N → At m hb (q i) (y i) ∧ (hb ≠ h ∨ q i < p ∨ p + i ≤ q i))
    (ho : ∀ i, i < N → ∃ z, At m h (p + i) z) {base pb : Nat} :
    ∀ (n j : Nat) (m' : Mem α), base + j + n ≤ N → (∀ t, j ≤ t → t < j + n → q (base + t) = pb + t) →
      Updated m m' h p (base + j) (fun i => f (x i) (y i)) →
      ∃ m'', vecLoop f ha ((pa + base : Nat) : Int) hb (pb : Int) h ((p + base : Nat) : Int) j n m' = .ok m'' ∧
        Updated m m'' h p (base + j + n) (fun i => f (x i) (y i))
  | 0, j, m', _, _, u => ⟨m', rfl, u⟩
  | n + 1, j, m', hN, hq, u => by
    obtain ⟨x1, x2⟩ := hx (base + j) (by omega)
    obtain ⟨y1, y2⟩ := hy (base + j) (by omega)
    obtain ⟨z, hz⟩ := ho (base + j) (by omega)
    have hqj := hq j (by omega) (by omega)
    rw [hqj] at y1 y2
    have l1 := u.load y1 y2
    have l2 := u.load x1 x2
    obtain ⟨m2, s1, s2⟩ := u.store hz
    obtain ⟨m3, e, u3⟩ := vecLoop_eq hx hy ho (base := base) (pb := pb) n (j + 1) m2 (by omega)
      (fun t h1 h2 => hq t (by omega) (by omega)) s2
    refine ⟨m3, ?_, by rw [show base + j + (n + 1) = base + (j + 1) + n by omega]; exact u3⟩
    unfold vecLoop
    rw [show ((pb : Int) + (j : Int)) = ((pb + j : Nat) : Int) by push_cast; rfl, l1,
      show (((pa + base : Nat) : Int) + (j : Int)) = ((pa + (base + j) : Nat) : Int) by push_cast; ring, l2,
      show (((p + base : Nat) : Int) + (j : Int)) = ((p + (base + j) : Nat) : Int) by push_cast; ring]
    simp only [Outcome.bind_ok]
    rw [s1]
    exact e

/-- The scalar loop, when the right operand keeps reading as `y i`. -/
theorem scalarLoop_eq {m : Mem α} {f : α → α → α} {x y : Nat → α} {ha pa h p : Nat} {r : Rhs α} {N : Nat}
    (hx : ∀ i, i < N → At m ha (pa + i) (x i) ∧ (ha ≠ h ∨ pa + i < p ∨ p + i ≤ pa + i))
    (hy : ∀ i, i < N → ∀ m', Updated m m' h p i (fun i => f (x i) (y i)) → rhsNum m' r = .ok (y i))
    (ho : ∀ i, i < N → ∃ z, At m h (p + i) z) :
    ∀ (n i : Nat) (m' : Mem α), i + n = N → Updated m m' h p i (fun i => f (x i) (y i)) →
      ∃ m'', scalarLoop f ha (pa : Int) r h (p : Int) i n m' = .ok m'' ∧ Updated m m'' h p N (fun i => f (x i) (y i))
  | 0, i, m', hN, u => ⟨m', rfl, by rw [← hN]; exact u⟩
  | n + 1, i, m', hN, u => by
    obtain ⟨x1, x2⟩ := hx i (by omega)
    obtain ⟨z, hz⟩ := ho i (by omega)
    have l2 := u.load x1 x2
    have l1 := hy i (by omega) m' u
    obtain ⟨m2, s1, s2⟩ := u.store hz
    obtain ⟨m3, e, u3⟩ := scalarLoop_eq hx hy ho n (i + 1) m2 (by omega) s2
    refine ⟨m3, ?_, u3⟩
    unfold scalarLoop
    rw [show ((pa : Int) + (i : Int)) = ((pa + i : Nat) : Int) by push_cast; rfl, l2, l1,
      show ((p : Int) + (i : Int)) = ((p + i : Nat) : Int) by push_cast; rfl]
    simp only [Outcome.bind_ok]
    rw [s1]
    exact e

/-- Both ways of making one: where it lies in memory does not depend on the contents. -/
theorem arrOf_updated {m m' : Mem α} {h p n : Nat} {v : Nat → α} (u : Updated m m' h p n v) {a : Ref} {d : List α}
    (hd : m[a.heap]? = some d) : ∃ d', arrOf m' a = .ok ⟨d', a.ip⟩ ∧ d'.length = d.length := by
  by_cases e : a.heap = h
  · obtain ⟨_, D, D', g1, g2, g3, _⟩ := u
    rw [e] at hd
    cases hd.symm.trans g1
    exact ⟨D', by unfold arrOf; rw [e, heapOf_some g2]; rfl, g3⟩
  · exact ⟨d, by unfold arrOf; rw [heapOf_some ((u.1 _ e).trans hd)]; rfl, rfl⟩

theorem HasShape_data {d d' : List α} {ip : Option (List Int)} {o : Int} {sh : List Int} (h : HasShape (⟨d, ip⟩ : Arr α) o sh)
    (hl : d'.length = d.length) : HasShape (⟨d', ip⟩ : Arr α) o sh := by
  cases h with
  | view _ _ hi hf hn => exact .view _ _ hi hf hn
  | plain hi hl' =>
    have : HasShape (⟨d', ip⟩ : Arr α) 0 [(d'.length : Int)] := .plain hi (by show (d'.length : Int) < _; rw [hl]; exact hl')
    rw [hl] at this
    exact this

/-- Which references a functor writes to. -/
def target (fn : Fn) (a o : Ref) : Ref := if fn = .mul then o else a

theorem vector_eq {fn : Fn} {f : α → α → α} {a b o : Ref} {m : Mem α} {dA dB dO : List α} {oa ob oo : Nat} {shA shB shO : List Int}
    (hs : Supported fn a.kind) (hio : fn = .add ∨ fn = .sub → a = o)
    (hA : arrOf m a = .ok ⟨dA, a.ip⟩) (hB : arrOf m b = .ok ⟨dB, b.ip⟩) (hO : arrOf m o = .ok ⟨dO, o.ip⟩)
    (sA : HasShape (⟨dA, a.ip⟩ : Arr α) oa shA) (sB : HasShape (⟨dB, b.ip⟩ : Arr α) ob shB)
    (sO : HasShape (⟨dO, o.ip⟩ : Arr α) oo shO) (offA offO : Int) :
    vector fn f a offA b o offO m =
      vecLoop f a.heap (oa + offA) b.heap ob (target fn a o).heap (if fn = .mul then oo + offO else oa + offA) 0
        shB.prod.toNat m := by
  unfold vector
  rw [hA, hB, hO]
  simp only [Outcome.bind_ok]
  rw [sA.offset, sB.offset, sO.offset, sB.size]
  simp only [Outcome.bind_ok]
  cases fn with
  | set =>
    simp only [Supported] at hs
    rcases hs with h | h <;> rw [h] <;> simp [target]
  | add =>
    simp only [Supported] at hs
    have := hio (Or.inl rfl)
    rcases hs with h | h | h <;> rw [h] <;> simp [target, this]
  | sub =>
    simp only [Supported] at hs
    have := hio (Or.inr rfl)
    rcases hs with h | h <;> rw [h] <;> simp [target, this]
  | mul =>
    simp only [Supported] at hs
    rcases hs with h | h <;> rw [h] <;> simp [target]
  | div => exact hs.elim

theorem mod_block {s i t : Nat} (ht : t < s) : (s * i + t) % s = t := by
  rw [Nat.mul_add_mod, Nat.mod_eq_of_lt ht]

/-- The loop over blocks; `T` is the reference written to, at `p`. -/
theorem blockLoop_eq {m : Mem α} {fn : Fn} {f : α → α → α} {a b o : Ref} {x y : Nat → α} {oa ob oo n s : Nat}
    {dA dB dO : List α} {shA shB shO : List Int}
    (hs : Supported fn a.kind) (hio : fn = .add ∨ fn = .sub → a = o)
    (hA : m[a.heap]? = some dA) (hB : m[b.heap]? = some dB) (hO : m[o.heap]? = some dO)
    (sA : HasShape (⟨dA, a.ip⟩ : Arr α) oa shA) (sB : HasShape (⟨dB, b.ip⟩ : Arr α) ob shB)
    (sO : HasShape (⟨dO, o.ip⟩ : Arr α) oo shO) (hsb : shB.prod = s)
    {p : Nat} (hp : p = if fn = .mul then oo else oa)
    (hx : ∀ i, i < n * s → At m a.heap (oa + i) (x i) ∧ (a.heap ≠ (target fn a o).heap ∨ oa + i < p ∨ p + i ≤ oa + i))
    (hy : ∀ i, i < n * s → At m b.heap (ob + i % s) (y (i % s)) ∧
      (b.heap ≠ (target fn a o).heap ∨ ob + i % s < p ∨ p + i ≤ ob + i % s))
    (ho : ∀ i, i < n * s → ∃ z, At m (target fn a o).heap (p + i) z) :
    ∀ (k i : Nat) (m' : Mem α), i + k = n →
      Updated m m' (target fn a o).heap p (s * i) (fun i => f (x i) (y (i % s))) →
      ∃ m'', blockLoop (fun offA offO m => vector fn f a offA b o offO m) (s : Int) (s : Int) i k m' = .ok m'' ∧
        Updated m m'' (target fn a o).heap p (n * s) (fun i => f (x i) (y (i % s)))
  | 0, i, m', hn, u => ⟨m', rfl, by rw [← hn, Nat.add_zero, Nat.mul_comm]; exact u⟩
  | k + 1, i, m', hn, u => by
    have hb : s * (i + 1) ≤ s * n := Nat.mul_le_mul_left _ (by omega)
    rw [Nat.mul_add, Nat.mul_one, Nat.mul_comm s n] at hb
    obtain ⟨dA', eA, lA⟩ := arrOf_updated u hA
    obtain ⟨dB', eB, lB⟩ := arrOf_updated u hB
    obtain ⟨dO', eO, lO⟩ := arrOf_updated u hO
    have hv := vector_eq (f := f) hs hio eA eB eO (HasShape_data sA lA) (HasShape_data sB lB) (HasShape_data sO lO)
      ((s : Int) * i) ((s : Int) * i)
    rw [hsb, Int.toNat_natCast] at hv
    obtain ⟨m2, e2, u2⟩ := vecLoop_eq (f := f) (x := x) (y := fun i => y (i % s)) (q := fun i => ob + i % s) (N := n * s)
      hx hy ho (base := s * i) (pb := ob) s 0 m' (by omega)
      (fun t _ h2 => by show ob + (s * i + t) % s = _; rw [mod_block (by omega)]) u
    obtain ⟨m3, e3, u3⟩ := blockLoop_eq hs hio hA hB hO sA sB sO hsb hp hx hy ho k (i + 1) m2 (by omega)
      (by rw [Nat.mul_add, Nat.mul_one]; exact u2)
    refine ⟨m3, ?_, u3⟩
    unfold blockLoop
    rw [hv]
    have hpp : (if fn = .mul then (oo : Int) + (s : Int) * i else (oa : Int) + (s : Int) * i) = ((p + s * i : Nat) : Int) := by
      rw [hp]; split <;> push_cast <;> rfl
    rw [hpp, show (oa : Int) + (s : Int) * (i : Int) = ((oa + s * i : Nat) : Int) by push_cast; rfl, e2]
    exact e3

theorem broadcast_arr {m : Mem α} {fn : Fn} {f : α → α → α} {a b o : Ref} {x y : Nat → α} {oa ob oo n s : Nat}
    {dA dB dO : List α} {lead tail : List Int}
    (hs : Supported fn a.kind) (hio : fn = .add ∨ fn = .sub → a = o)
    (hA : m[a.heap]? = some dA) (hB : m[b.heap]? = some dB) (hO : m[o.heap]? = some dO)
    (sA : HasShape (⟨dA, a.ip⟩ : Arr α) oa (lead ++ tail)) (sB : HasShape (⟨dB, b.ip⟩ : Arr α) ob tail)
    (sO : HasShape (⟨dO, o.ip⟩ : Arr α) oo (lead ++ tail)) (hsb : tail.prod = s) (hn : lead.prod = n) (hs0 : 0 < s)
    (hone : tail ≠ [1]) (hk : a.kind = b.kind)
    {p : Nat} (hp : p = if fn = .mul then oo else oa)
    (hx : ∀ i, i < n * s → At m a.heap (oa + i) (x i) ∧ (a.heap ≠ (target fn a o).heap ∨ oa + i < p ∨ p + i ≤ oa + i))
    (hy : ∀ i, i < n * s → At m b.heap (ob + i % s) (y (i % s)) ∧
      (b.heap ≠ (target fn a o).heap ∨ ob + i % s < p ∨ p + i ≤ ob + i % s))
    (ho : ∀ i, i < n * s → ∃ z, At m (target fn a o).heap (p + i) z) :
    ∃ m', broadcast fn f a (.arr b) o m = .ok m' ∧
      Updated m m' (target fn a o).heap p (n * s) (fun i => f (x i) (y (i % s))) := by
  have hT : ∃ dT, m[(target fn a o).heap]? = some dT := by
    unfold target; split
    · exact ⟨dO, hO⟩
    · exact ⟨dA, hA⟩
  obtain ⟨dT, hT⟩ := hT
  obtain ⟨m', e, u⟩ := blockLoop_eq (f := f) (n := n) (s := s) hs hio hA hB hO sA sB sO hsb hp hx hy ho n 0 m (by omega)
    (Updated.zero hT _)
  refine ⟨m', ?_, u⟩
  unfold broadcast
  simp only []
  rw [show arrOf m a = .ok ⟨dA, a.ip⟩ by unfold arrOf; rw [heapOf_some hA]; rfl,
    show arrOf m b = .ok ⟨dB, b.ip⟩ by unfold arrOf; rw [heapOf_some hB]; rfl,
    show arrOf m o = .ok ⟨dO, o.ip⟩ by unfold arrOf; rw [heapOf_some hO]; rfl]
  simp only [Outcome.bind_ok]
  rw [sB.size]
  simp only [Outcome.bind_ok]
  have h1 : ¬ (dim (⟨dB, b.ip⟩ : Arr α) = 1 ∧ tail.prod = 1) := by
    rw [sB.dim]
    rintro ⟨e1, e2⟩
    match tail, e1, e2 with
    | [d], _, e2 => simp at e2; exact hone (by rw [e2])
  rw [if_neg h1, if_neg (by rw [sA.dim, sB.dim]; simp), if_neg (by simp [hk]), sB.dim, blockStep_eq sA, blockStep_eq sO, sA.size]
  simp only [Outcome.bind_ok]
  rw [if_neg (by rw [hsb]; omega), List.prod_append, hn, hsb, tdiv_blocks n s hs0]
  exact e

theorem arrOf_some {m : Mem α} {a : Ref} {d : List α} (h : m[a.heap]? = some d) : arrOf m a = .ok ⟨d, a.ip⟩ := by
  unfold arrOf; rw [heapOf_some h]; rfl

theorem assignOp_eq {fn : Fn} {f : α → α → α} {re : α → α} {a : Ref} {r : Rhs α} {m : Mem α} (hc : a.kind ≠ .cdouble) :
    assignOp fn f re a r m = broadcast fn f a r a m := if_neg hc

theorem binOp_eq {fn : Fn} {f : α → α → α} {re : α → α} {a : Ref} {r : Rhs α} {junk : List α} {m : Mem α} (hc : a.kind ≠ .cdouble) :
    binOp fn f re a r junk m = (broadcast fn f a r ⟨a.kind, m.length, a.ip⟩ (m ++ [junk]) >>= fun m' => .ok (⟨a.kind, m.length, a.ip⟩, m')) := by
  unfold binOp allocLike scalar
  simp only
  rw [if_neg hc]

theorem supported_kind {fn : Fn} {k : Num} (h : Supported fn k) : k ≠ .cdouble := by
  rintro rfl
  cases fn <;> simp [Supported] at h

/-- A right operand of size 1, for all functors but `mul`. -/
theorem broadcastOne_eq {m : Mem α} {fn : Fn} (hfn : fn ≠ .mul) {f : α → α → α} {a o : Ref} {r : Rhs α} {x y : Nat → α}
    {oa oo N : Nat} {dA dO : List α} {sh shO : List Int} (hA : m[a.heap]? = some dA) (hO : m[o.heap]? = some dO)
    (sA : HasShape (⟨dA, a.ip⟩ : Arr α) oa sh) (sO : HasShape (⟨dO, o.ip⟩ : Arr α) oo shO) (hN : sh.prod = N)
    (hx : ∀ i, i < N → At m a.heap (oa + i) (x i) ∧ (a.heap ≠ o.heap ∨ oa + i < oo ∨ oo + i ≤ oa + i))
    (hy : ∀ i, i < N → ∀ m', Updated m m' o.heap oo i (fun i => f (x i) (y i)) → rhsNum m' r = .ok (y i))
    (ho : ∀ i, i < N → ∃ z, At m o.heap (oo + i) z) :
    ∃ m', broadcastOne fn f a r o m = .ok m' ∧ Updated m m' o.heap oo N (fun i => f (x i) (y i)) := by
  obtain ⟨m', e, u⟩ := scalarLoop_eq hx hy ho N 0 m (by omega) (Updated.zero hO _)
  refine ⟨m', ?_, u⟩
  unfold broadcastOne
  rw [if_neg hfn, arrOf_some hA, arrOf_some hO]
  simp only [Outcome.bind_ok]
  rw [sA.offset, sO.offset, sA.size]
  simp only [Outcome.bind_ok]
  rw [hN, Int.toNat_natCast]
  exact e

/-- `mul` by a right operand of size 1, read once. -/
theorem scale_eq {m : Mem α} {f : α → α → α} {a o : Ref} {r : Rhs α} {x : Nat → α} {y : α}
    {oa oo N : Nat} {dA dO : List α} {sh shO : List Int} (hk : a.kind = .float ∨ a.kind = .double)
    (hA : m[a.heap]? = some dA) (hO : m[o.heap]? = some dO)
    (sA : HasShape (⟨dA, a.ip⟩ : Arr α) oa sh) (sO : HasShape (⟨dO, o.ip⟩ : Arr α) oo shO) (hN : sh.prod = N)
    (hx : ∀ i, i < N → At m a.heap (oa + i) (x i) ∧ (a.heap ≠ o.heap ∨ oa + i < oo ∨ oo + i ≤ oa + i))
    (hy : rhsNum m r = .ok y)
    (ho : ∀ i, i < N → ∃ z, At m o.heap (oo + i) z) :
    ∃ m', broadcastOne .mul f a r o m = .ok m' ∧ Updated m m' o.heap oo N (fun i => f (x i) y) := by
  obtain ⟨m', e, u⟩ := scalarLoop_eq (f := f) (y := fun _ => y) (r := .num y) hx (fun _ _ _ _ => rfl) ho N 0 m (by omega) (Updated.zero hO _)
  refine ⟨m', ?_, u⟩
  unfold broadcastOne scale
  rw [if_pos rfl, arrOf_some hA, arrOf_some hO]
  simp only [Outcome.bind_ok]
  rw [sA.offset, sO.offset, sA.size]
  simp only [Outcome.bind_ok]
  rw [hN, Int.toNat_natCast]
  rcases hk with h | h <;> simp only [h] <;> rw [hy] <;> exact e

theorem vecLoop_append (f : α → α → α) (ha : Nat) (pa : Int) (hb : Nat) (pb : Int) (ho : Nat) (po : Int) :
    ∀ (n k j : Nat) (m : Mem α), vecLoop f ha pa hb pb ho po j (n + k) m =
      (vecLoop f ha pa hb pb ho po j n m).bind (vecLoop f ha pa hb pb ho po (j + n) k)
  | 0, k, j, m => by rw [Nat.zero_add]; rfl
  | n + 1, k, j, m => by
    rw [show n + 1 + k = (n + k) + 1 by omega]
    conv_lhs => unfold vecLoop
    conv_rhs => unfold vecLoop
    cases loadAt m hb (pb + j) with
    | ok y =>
      simp only [Outcome.bind_ok]
      cases loadAt m ha (pa + j) with
      | ok x =>
        simp only [Outcome.bind_ok]
        cases storeAt m ho (po + j) (f x y) with
        | ok m' =>
          simp only [Outcome.bind_ok]
          rw [vecLoop_append f ha pa hb pb ho po n k (j + 1) m', show j + 1 + n = j + (n + 1) by omega]
        | _ => rfl
      | _ => rfl
    | _ => rfl

theorem loadAt_outside {m : Mem α} {h p : Nat} {D : List α} (hD : m[h]? = some D) (hp : D.length ≤ p) :
    loadAt m h (p : Int) = .ub .outOfBounds := by
  unfold loadAt
  rw [heapOf_some hD]
  unfold load
  simp only [Outcome.bind_ok]
  rw [if_neg (by omega), Int.toNat_natCast, List.getElem?_eq_none hp]

theorem _root_.Libube.ArithSpec.IsArr.at {m : Mem α} {a : Ref} {o N : Nat} {sh} (h : IsArr m a o sh) (hN : sh.prod = N)
    (i : Nat) (hi : i < N) : ∃ z, At m a.heap (o + i) z := by
  obtain ⟨d, hd, _, _, _, hl⟩ := h.shape
  exact ⟨_, d, hd, List.getElem?_eq_getElem (by omega)⟩

theorem at_append {m : Mem α} {junk : List α} {h p : Nat} {x : α} (hx : At m h p x) : At (m ++ [junk]) h p x := by
  obtain ⟨D, h1, h2⟩ := hx
  have : h < m.length := (List.getElem?_eq_some_iff.mp h1).1
  exact ⟨D, by rw [List.getElem?_append_left this]; exact h1, h2⟩

theorem isArr_lt {m : Mem α} {a : Ref} {o : Nat} {sh} (h : IsArr m a o sh) : a.heap < m.length := by
  obtain ⟨d, hd, _⟩ := h.shape
  exact (List.getElem?_eq_some_iff.mp hd).1

theorem storeAt_at {m : Mem α} {h p : Nat} {x : α} (hx : At m h p x) (v : α) :
    ∃ m', storeAt m h (p : Int) v = .ok m' ∧
      ∀ h' k z, At m' h' k z ↔ if h' = h ∧ k = p then z = v else At m h' k z := by
  obtain ⟨D, h1, h2⟩ := hx
  have hp : p < D.length := (List.getElem?_eq_some_iff.mp h2).1
  have hh : h < m.length := (List.getElem?_eq_some_iff.mp h1).1
  refine ⟨m.set h (D.set p v), ?_, fun h' k z => ?_⟩
  · unfold storeAt store
    rw [heapOf_some h1]
    simp only [Outcome.bind_ok]
    rw [if_pos ⟨by omega, by omega⟩]
    simp
  · by_cases e : h' = h
    · subst e
      have g : (m.set h' (D.set p v))[h']? = some (D.set p v) := by simp [hh]
      by_cases e' : k = p
      · subst e'
        rw [if_pos ⟨rfl, rfl⟩]
        constructor
        · rintro ⟨D', d1, d2⟩
          rw [g] at d1
          cases d1
          simp [hp] at d2
          exact d2.symm
        · rintro rfl
          exact ⟨_, g, by simp [hp]⟩
      · rw [if_neg (by simp [e'])]
        constructor
        · rintro ⟨D', d1, d2⟩
          rw [g] at d1
          cases d1
          rw [List.getElem?_set_ne (Ne.symm e')] at d2
          exact ⟨D, h1, d2⟩
        · rintro ⟨D', d1, d2⟩
          rw [h1] at d1
          cases d1
          exact ⟨_, g, by rw [List.getElem?_set_ne (Ne.symm e')]; exact d2⟩
    · rw [if_neg (by simp [e])]
      unfold At
      rw [List.getElem?_set_ne (Ne.symm e)]

theorem at_unique {m : Mem α} {h p : Nat} {x y : α} (hx : At m h p x) (hy : At m h p y) : x = y := by
  obtain ⟨D, h1, h2⟩ := hx
  obtain ⟨E, h3, h4⟩ := hy
  rw [h1] at h3
  cases h3
  rw [h2] at h4
  exact Option.some.inj h4

theorem swapLoop_eq {m : Mem α} {ha p hb q N : Nat} (hd : ha ≠ hb ∨ p + N ≤ q ∨ q + N ≤ p)
    (hA : ∀ i, i < N → ∃ z, At m ha (p + i) z) (hB : ∀ i, i < N → ∃ z, At m hb (q + i) z) :
    ∀ (n j : Nat) (m' : Mem α), j + n = N → Exchanged m m' ha p hb q j →
      ∃ m'', swapLoop ha (p : Int) hb (q : Int) j n m' = .ok m'' ∧ Exchanged m m'' ha p hb q N
  | 0, j, m', hN, u => ⟨m', rfl, by rw [← hN]; exact u⟩
  | n + 1, j, m', hN, u => by
    obtain ⟨u1, u2, u3⟩ := u
    obtain ⟨x, hx⟩ := hA j (by omega)
    obtain ⟨y, hy⟩ := hB j (by omega)
    have hx' : At m' ha (p + j) x := (u3 ha (p + j) (by omega) (by omega) x).mpr hx
    have hy' : At m' hb (q + j) y := (u3 hb (q + j) (by omega) (by omega) y).mpr hy
    obtain ⟨m1, e1, s1⟩ := storeAt_at hx' y
    have hy1 : At m1 hb (q + j) y := by
      rw [s1, if_neg (by omega)]
      exact hy'
    obtain ⟨m2, e2, s2⟩ := storeAt_at hy1 x
    have key : Exchanged m m2 ha p hb q (j + 1) := by
      refine ⟨fun i hi z => ?_, fun i hi z => ?_, fun h k c1 c2 z => ?_⟩
      · rw [s2, if_neg (by omega), s1]
        by_cases e : i = j
        · subst e
          rw [if_pos ⟨rfl, rfl⟩]
          exact ⟨fun h => h ▸ hy, fun h => at_unique h hy⟩
        · rw [if_neg (by omega)]
          exact u1 i (by omega) z
      · rw [s2]
        by_cases e : i = j
        · subst e
          rw [if_pos ⟨rfl, rfl⟩]
          exact ⟨fun h => h ▸ hx, fun h => at_unique h hx⟩
        · rw [if_neg (by omega), s1, if_neg (by omega)]
          exact u2 i (by omega) z
      · rw [s2, if_neg (by omega), s1, if_neg (by omega)]
        exact u3 h k (by omega) (by omega) z
    obtain ⟨m3, e3, r3⟩ := swapLoop_eq hd hA hB n (j + 1) m2 (by omega) key
    refine ⟨m3, ?_, r3⟩
    unfold swapLoop
    rw [show ((p : Int) + (j : Int)) = ((p + j : Nat) : Int) by push_cast; rfl,
      show ((q : Int) + (j : Int)) = ((q + j : Nat) : Int) by push_cast; rfl, loadAt_at hx', loadAt_at hy']
    simp only [Outcome.bind_ok]
    rw [e1]
    simp only [Outcome.bind_ok]
    rw [e2]
    simp only [Outcome.bind_ok]
    exact e3

theorem swapLoop_append (ha : Nat) (pa : Int) (hb : Nat) (pb : Int) :
    ∀ (n k j : Nat) (m : Mem α), swapLoop ha pa hb pb j (n + k) m =
      (swapLoop ha pa hb pb j n m).bind (swapLoop ha pa hb pb (j + n) k)
  | 0, k, j, m => by rw [Nat.zero_add]; rfl
  | n + 1, k, j, m => by
    rw [show n + 1 + k = (n + k) + 1 by omega]
    conv_lhs => unfold swapLoop
    conv_rhs => unfold swapLoop
    cases loadAt m ha (pa + j) <;> try rfl
    cases loadAt m hb (pb + j) <;> try rfl
    rename_i x y
    simp only [Outcome.bind_ok]
    cases storeAt m ha (pa + j) y <;> try rfl
    rename_i m1
    simp only [Outcome.bind_ok]
    cases storeAt m1 hb (pb + j) x <;> try rfl
    rename_i m2
    simp only [Outcome.bind_ok]
    rw [swapLoop_append ha pa hb pb n k (j + 1) m2, show j + 1 + n = j + (n + 1) by omega]

theorem at_iff_length {m : Mem α} {h : Nat} {D : List α} (hD : m[h]? = some D) (p : Nat) : (∃ z, At m h p z) ↔ p < D.length := by
  constructor
  · rintro ⟨z, E, h1, h2⟩
    rw [hD] at h1
    cases h1
    exact (List.getElem?_eq_some_iff.mp h2).1
  · intro hp
    exact ⟨_, D, hD, List.getElem?_eq_getElem hp⟩

/-- Swapping changes no lengths. -/
theorem exchanged_exists {m m' : Mem α} {ha p hb q n : Nat} (e : Exchanged m m' ha p hb q n)
    (hA : ∀ i, i < n → ∃ z, At m ha (p + i) z) (hB : ∀ i, i < n → ∃ z, At m hb (q + i) z) (h k : Nat) :
    (∃ z, At m' h k z) ↔ ∃ z, At m h k z := by
  obtain ⟨e1, e2, e3⟩ := e
  by_cases c1 : h = ha ∧ p ≤ k ∧ k < p + n
  · obtain ⟨rfl, c, d⟩ := c1
    obtain ⟨i, rfl⟩ := Nat.exists_eq_add_of_le c
    obtain ⟨z, hz⟩ := hB i (by omega)
    exact ⟨fun _ => hA i (by omega), fun _ => ⟨z, (e1 i (by omega) z).mpr hz⟩⟩
  · by_cases c2 : h = hb ∧ q ≤ k ∧ k < q + n
    · obtain ⟨rfl, c, d⟩ := c2
      obtain ⟨i, rfl⟩ := Nat.exists_eq_add_of_le c
      obtain ⟨z, hz⟩ := hA i (by omega)
      exact ⟨fun _ => hB i (by omega), fun _ => ⟨z, (e2 i (by omega) z).mpr hz⟩⟩
    · exact exists_congr (e3 h k c1 c2)

theorem loadAt_none {m : Mem α} {h p : Nat} {D : List α} (hD : m[h]? = some D) (hn : ¬ ∃ z, At m h p z) :
    loadAt m h (p : Int) = .ub .outOfBounds := by
  rw [at_iff_length hD] at hn
  exact loadAt_outside hD (by omega)

theorem exchanged_zero (m : Mem α) (ha p hb q : Nat) : Exchanged m m ha p hb q 0 :=
  ⟨fun i hi => absurd hi (by omega), fun i hi => absurd hi (by omega), fun _ _ _ _ _ => Iff.rfl⟩

end Libube.Arith

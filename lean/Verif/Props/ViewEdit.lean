import Verif.Props.ViewOps

/-! # C155: insert, remove, unshift and presize on views

`W.of v.data ip k` is the view `v` with description `ip` and room for `k` more entries. -/

namespace Libube.View

open Libube ViewSpec

theorem store_inside {data : List α} {i : Int} (h0 : 0 ≤ i) (h1 : i < data.length) (x : α) : store data i x = .ok (data.set i.toNat x) := by
  unfold store
  rw [if_neg (by omega), if_pos (by omega)]

theorem moveDown_ok {cells : List (Option Int)} {n o : Int} (h : cells[0]? = some (some o)) (h0 : 0 ≤ o) (c : Nat) : ∀ (data : List α) (q : Int), 1 ≤ q →
    q + c + o ≤ data.length → (data.length : Int) < 2 ^ 31 →
    ∃ data', (⟨data, cells, n⟩ : W α).moveDown q c = .ok ⟨data', cells, n⟩ ∧
      ∀ i : Nat, data'[i]? = if q - 1 + o ≤ i ∧ (i : Int) < q - 1 + o + c then data[i + 1]? else data[i]? := by
  induction c with
  | zero => exact fun data q _ _ _ => ⟨data, rfl, fun i => by rw [if_neg (by omega)]⟩
  | succ c ih =>
    intro data q hq hl hd
    push_cast at hl
    obtain ⟨x, hx, hlx⟩ := load_inside (data := data) (i := q + o) (by omega) (by omega)
    obtain ⟨data', h1, h2⟩ := ih (data.set (q - 1 + o).toNat x) (q + 1) (by omega) (by rw [List.length_set]; omega) (by rw [List.length_set]; omega)
    refine ⟨data', ?_, fun i => ?_⟩
    · unfold W.moveDown
      rw [at_of h ⟨by omega, by omega⟩, hlx, Outcome.bind_ok, cell_of h, Outcome.bind_ok, cint_ok ⟨by omega, by omega⟩, Outcome.bind_ok]
      simp only
      rw [store_inside (by omega) (by omega), Outcome.bind_ok]
      exact h1
    · rw [h2 i]
      by_cases hi : (i : Int) = q - 1 + o
      · rw [if_neg (by omega), if_pos (by omega), show (q - 1 + o).toNat = i by omega, List.getElem?_set_self (by omega), ← hx]
        congr 1
        omega
      · by_cases hb : q - 1 + o ≤ i ∧ (i : Int) < q - 1 + o + (c + 1 : Nat)
        · rw [if_pos hb, if_pos (by push_cast at hb; omega), List.getElem?_set_ne (by omega)]
        · rw [if_neg hb, if_neg (by push_cast at hb; omega), List.getElem?_set_ne (by omega)]

theorem moveUp_ok {cells : List (Option Int)} {n o : Int} (h : cells[0]? = some (some o)) (h0 : 0 ≤ o) (c : Nat) : ∀ (data : List α) (q : Int), c ≤ q →
    q + o < data.length → (data.length : Int) < 2 ^ 31 →
    ∃ data', (⟨data, cells, n⟩ : W α).moveUp q c = .ok ⟨data', cells, n⟩ ∧
      ∀ i : Nat, data'[i]? = if q + o - c < i ∧ (i : Int) ≤ q + o then data[i - 1]? else data[i]? := by
  induction c with
  | zero => exact fun data q _ _ _ => ⟨data, rfl, fun i => by rw [if_neg (by omega)]⟩
  | succ c ih =>
    intro data q hq hl hd
    push_cast at hq
    obtain ⟨x, hx, hlx⟩ := load_inside (data := data) (i := q - 1 + o) (by omega) (by omega)
    obtain ⟨data', h1, h2⟩ := ih (data.set (q + o).toNat x) (q - 1) (by omega) (by rw [List.length_set]; omega) (by rw [List.length_set]; omega)
    refine ⟨data', ?_, fun i => ?_⟩
    · unfold W.moveUp
      rw [at_of h ⟨by omega, by omega⟩, hlx, Outcome.bind_ok, cell_of h, Outcome.bind_ok, cint_ok ⟨by omega, by omega⟩, Outcome.bind_ok]
      simp only
      rw [store_inside (by omega) (by omega), Outcome.bind_ok]
      exact h1
    · rw [h2 i]
      by_cases hi : (i : Int) = q + o
      · rw [if_neg (by omega), if_pos (by push_cast; omega), show (q + o).toNat = i by omega, List.getElem?_set_self (by omega), ← hx]
        congr 1
        omega
      · by_cases hb : q + o - (c + 1 : Nat) < i ∧ (i : Int) ≤ q + o
        · rw [if_pos hb, if_pos (by push_cast at hb; omega), List.getElem?_set_ne (by omega)]
        · rw [if_neg hb, if_neg (by push_cast at hb; omega), List.getElem?_set_ne (by omega)]

/-- C155 for `remove` on a view: element `i` is returned and the ones behind it move down, but the view has the size it had and ends with what was
    its last element, twice.  Nothing outside of the view changes. -/
theorem remove_view_partial {a v : Arr α} {sh : List Int} {off : Int} {ip : List Int} {pre xs post : List α} (h : view a sh off = .ok v) (hip : v.ip = some ip)
    (ho : offset v = .ok pre.length) (ha : a.data = pre ++ xs ++ post) (hx : sh.prod = xs.length) (k : Nat) {i : Nat} (hi : i < xs.length) (h4 : 4 ≤ xs.length)
    (hs : xs.length < 2 ^ 30) (hd : a.data.length < 2 ^ 31) :
    ∃ r w, xs[i]? = some r ∧ (W.of v.data ip k).remove i = .ok (r, w) ∧ w.data = pre ++ (xs.eraseIdx i ++ xs.drop (xs.length - 1)) ++ post ∧
      w.size = .ok xs.length := by
  obtain ⟨cells, e, c0, ⟨d, p, c1, c2, hp⟩, -, -, -, -, hsh⟩ := before h hip ho k
  have hlen : a.data.length = pre.length + xs.length + post.length := by rw [ha, List.length_append, List.length_append]
  obtain ⟨x, hxi, hlx⟩ := load_inside (data := a.data) (i := (i : Int) + pre.length) (by omega) (by omega)
  obtain ⟨data', m1, m2⟩ := moveDown_ok (n := 2 * sh.length + 1) c0 (by omega) (xs.length - (i + 1)) a.data ((i : Int) + 1) (by omega) (by omega) (by omega)
  obtain ⟨j, hj⟩ := resize_ok (⟨data', cells, 2 * sh.length + 1⟩ : W α) ((xs.length : Int) - 1) (by omega) (by omega)
  refine ⟨x, ⟨data', cells ++ List.replicate j none, (xs.length : Int) - 1⟩, ?_, ?_, ?_, ?_⟩
  · rw [← hxi, ha, List.append_assoc, List.getElem?_append_right (by omega), List.getElem?_append_left (by omega)]
    congr 1
    omega
  · unfold W.remove
    rw [if_neg (by omega), e, W.size_of c1 c2 (by omega), hp, hx, cint_ok ⟨by omega, by omega⟩, Outcome.bind_ok, cint_ok ⟨by omega, by omega⟩, Outcome.bind_ok,
      if_neg (by omega), at_of c0 ⟨by omega, by omega⟩, hlx, Outcome.bind_ok, show ((xs.length : Int) - ((i : Int) + 1)).toNat = xs.length - (i + 1) by omega, m1,
      Outcome.bind_ok, hj, Outcome.bind_ok]
  · refine List.ext_getElem? fun q => ?_
    simp only
    rw [m2 q, ha]
    simp only [List.append_assoc]
    by_cases q1 : q < pre.length
    · rw [if_neg (by omega), List.getElem?_append_left q1, List.getElem?_append_left q1]
    · rw [List.getElem?_append_right (l₁ := pre) (i := q) (by omega), List.getElem?_append_right (l₁ := pre) (i := q) (by omega)]
      have le : (xs.eraseIdx i).length = xs.length - 1 := List.length_eraseIdx_of_lt hi
      have ld : (xs.drop (xs.length - 1)).length = 1 := by simp; omega
      by_cases q2 : q - pre.length < xs.length - 1
      · rw [List.getElem?_append_left (l₁ := xs.eraseIdx i) (by omega), List.getElem?_eraseIdx]
        by_cases q3 : q - pre.length < i
        · rw [if_neg (by omega), if_pos q3, List.getElem?_append_left (by omega)]
        · rw [if_pos (by omega), if_neg q3, List.getElem?_append_right (by omega), List.getElem?_append_left (by omega)]
          congr 1
          omega
      · rw [if_neg (by omega), List.getElem?_append_right (l₁ := xs.eraseIdx i) (by omega), le]
        by_cases q3 : q - pre.length = xs.length - 1
        · rw [List.getElem?_append_left (by omega), List.getElem?_append_left (by omega), List.getElem?_drop]
          congr 1
          omega
        · rw [List.getElem?_append_right (l₁ := xs) (by omega), List.getElem?_append_right (l₁ := xs.drop (xs.length - 1)) (by omega), ld]
          congr 1
          omega
  · rw [W.size_of (grown c1) (grown c2) (by omega), hp, hx, cint_ok ⟨by omega, by omega⟩]

/-- C155 is false for `insert` on a view: elements move up within it, its last element is lost and its size stays the same. -/
theorem insert_view_loses {a v : Arr α} {sh : List Int} {off : Int} {ip : List Int} {pre xs post : List α} (h : view a sh off = .ok v) (hip : v.ip = some ip)
    (ho : offset v = .ok pre.length) (ha : a.data = pre ++ xs ++ post) (hx : sh.prod = xs.length) (k : Nat) (x : α) {p : Nat} (hp : p < xs.length) (h2 : 2 ≤ xs.length)
    (hs : xs.length < 2 ^ 30) (hd : a.data.length < 2 ^ 31) :
    ∃ w, (W.of v.data ip k).insert x p = .ok w ∧ w.data = pre ++ (xs.take p ++ x :: (xs.drop p).dropLast) ++ post ∧ w.size = .ok xs.length := by
  obtain ⟨cells, e, c0, ⟨d, r, c1, c2, hr⟩, -, -, -, -, hsh⟩ := before h hip ho k
  have hlen : a.data.length = pre.length + xs.length + post.length := by rw [ha, List.length_append, List.length_append]
  obtain ⟨j, hj⟩ := resize_ok (⟨a.data, cells, 2 * sh.length + 1⟩ : W α) ((xs.length : Int) + 1) (by omega) (by omega)
  obtain ⟨data', m1, m2⟩ := moveUp_ok (n := (xs.length : Int) + 1) (grown (k := j) c0) (by omega) (xs.length - 1 - p) a.data ((xs.length : Int) - 1) (by omega) (by omega) (by omega)
  have hl' : data'.length = a.data.length := by
    have g1 := m2 (a.data.length - 1)
    have g2 := m2 a.data.length
    rw [if_neg (by omega), List.getElem?_eq_none (Nat.le_refl _)] at g2
    have g3 := List.getElem?_eq_none_iff.1 g2
    have g4 : ∃ y, data'[a.data.length - 1]? = some y := by
      rw [g1]
      split
      · exact ⟨_, List.getElem?_eq_getElem (by omega)⟩
      · exact ⟨_, List.getElem?_eq_getElem (by omega)⟩
    obtain ⟨y, hy⟩ := g4
    have := (List.getElem?_eq_some_iff.1 hy).1
    omega
  refine ⟨⟨data'.set (p + pre.length) x, cells ++ List.replicate j none, (xs.length : Int) + 1⟩, ?_, ?_, ?_⟩
  · unfold W.insert
    rw [e, W.size_of c1 c2 (by omega), hr, hx, cint_ok ⟨by omega, by omega⟩, Outcome.bind_ok, if_neg (by omega), cint_ok ⟨by omega, by omega⟩, Outcome.bind_ok,
      hj, Outcome.bind_ok, W.size_of (grown c1) (grown c2) (by omega), hr, hx, cint_ok ⟨by omega, by omega⟩, Outcome.bind_ok,
      show ((xs.length : Int) - 1 - p).toNat = xs.length - 1 - p by omega, m1, Outcome.bind_ok, cell_of (grown c0), Outcome.bind_ok, cint_ok ⟨by omega, by omega⟩,
      Outcome.bind_ok]
    simp only
    rw [store_inside (by omega) (by omega), Outcome.bind_ok]
    rw [show ((p : Int) + pre.length).toNat = p + pre.length by omega]
  · refine List.ext_getElem? fun q => ?_
    simp only
    have lt : (xs.take p).length = p := by simp; omega
    have ld : ((xs.drop p).dropLast).length = xs.length - p - 1 := by simp
    by_cases q0 : q = p + pre.length
    · subst q0
      rw [List.getElem?_set_self (by omega), List.append_assoc, List.getElem?_append_right (by omega), List.append_assoc, List.getElem?_append_right (by omega), lt,
        show p + pre.length - pre.length - p = 0 by omega]
      rfl
    · rw [List.getElem?_set_ne (by omega), m2 q, ha]
      simp only [List.append_assoc]
      by_cases q1 : q < pre.length
      · rw [if_neg (by omega), List.getElem?_append_left q1, List.getElem?_append_left q1]
      · by_cases q2 : q < p + pre.length
        · rw [if_neg (by omega), List.getElem?_append_right (l₁ := pre) (i := q) (by omega), List.getElem?_append_right (l₁ := pre) (i := q) (by omega),
            List.getElem?_append_left (by omega), List.getElem?_append_left (by omega), List.getElem?_take, if_pos (by omega)]
        · rw [List.getElem?_append_right (l₁ := pre) (i := q) (l₂ := xs.take p ++ _) (by omega), List.getElem?_append_right (l₁ := xs.take p) (by omega), lt,
            show q - pre.length - p = (q - pre.length - p - 1) + 1 by omega, List.cons_append, List.getElem?_cons_succ]
          by_cases q3 : q < pre.length + xs.length
          · rw [if_pos (by omega), List.getElem?_append_right (by omega), List.getElem?_append_left (by omega), List.getElem?_append_left (by omega),
              List.getElem?_dropLast, if_pos (by simp; omega), List.getElem?_drop]
            congr 1
            omega
          · rw [if_neg (by omega), List.getElem?_append_right (by omega), List.getElem?_append_right (l₁ := xs) (by omega),
              List.getElem?_append_right (l₁ := (xs.drop p).dropLast) (by omega), ld]
            congr 1
            omega
  · rw [W.size_of (grown c1) (grown c2) (by omega), hr, hx, cint_ok ⟨by omega, by omega⟩]

/-- At the end of a view, `insert` does what `push` does: the element of the array behind the view is overwritten, … -/
theorem insert_view_behind {a v : Arr α} {sh : List Int} {off : Int} {ip : List Int} {pre xs post : List α} {y : α} (h : view a sh off = .ok v) (hip : v.ip = some ip)
    (ho : offset v = .ok pre.length) (ha : a.data = pre ++ xs ++ y :: post) (hx : sh.prod = xs.length) (k : Nat) (x : α) (h2 : 2 ≤ xs.length)
    (hs : xs.length < 2 ^ 30) (hd : a.data.length < 2 ^ 31) :
    ∃ w, (W.of v.data ip k).insert x xs.length = .ok w ∧ w.data = pre ++ xs ++ x :: post ∧ w.size = .ok xs.length := by
  obtain ⟨cells, e, c0, ⟨d, r, c1, c2, hr⟩, -, -, -, -, hsh⟩ := before h hip ho k
  have hlen : a.data.length = pre.length + xs.length + post.length + 1 := by rw [ha]; simp; omega
  obtain ⟨j, hj⟩ := resize_ok (⟨a.data, cells, 2 * sh.length + 1⟩ : W α) ((xs.length : Int) + 1) (by omega) (by omega)
  refine ⟨⟨a.data.set (xs.length + pre.length) x, cells ++ List.replicate j none, (xs.length : Int) + 1⟩, ?_, ?_, ?_⟩
  · unfold W.insert
    rw [e, W.size_of c1 c2 (by omega), hr, hx, cint_ok ⟨by omega, by omega⟩, Outcome.bind_ok, if_neg (by omega), cint_ok ⟨by omega, by omega⟩, Outcome.bind_ok,
      hj, Outcome.bind_ok, W.size_of (grown c1) (grown c2) (by omega), hr, hx, cint_ok ⟨by omega, by omega⟩, Outcome.bind_ok,
      show ((xs.length : Int) - 1 - xs.length).toNat = 0 by omega]
    unfold W.moveUp
    rw [Outcome.bind_ok, cell_of (grown c0), Outcome.bind_ok, cint_ok ⟨by omega, by omega⟩, Outcome.bind_ok]
    simp only
    rw [store_inside (by omega) (by omega), Outcome.bind_ok]
    rw [show ((xs.length : Int) + pre.length).toNat = xs.length + pre.length by omega]
  · simp only
    rw [ha, List.set_append_right _ _ (by simp; omega), show xs.length + pre.length - (pre ++ xs).length = 0 by simp; omega]
    rfl
  · rw [W.size_of (grown c1) (grown c2) (by omega), hr, hx, cint_ok ⟨by omega, by omega⟩]

/-- … and if the array ends there, memory outside of it is written to. -/
theorem insert_view_undefined {a v : Arr α} {sh : List Int} {off : Int} {ip : List Int} {pre xs : List α} (h : view a sh off = .ok v) (hip : v.ip = some ip)
    (ho : offset v = .ok pre.length) (ha : a.data = pre ++ xs) (hx : sh.prod = xs.length) (k : Nat) (x : α) (h2 : 2 ≤ xs.length)
    (hs : xs.length < 2 ^ 30) (hd : a.data.length < 2 ^ 31) : (W.of v.data ip k).insert x xs.length = .ub .outOfBounds := by
  obtain ⟨cells, e, c0, ⟨d, r, c1, c2, hr⟩, -, -, -, -, hsh⟩ := before h hip ho k
  have hlen : a.data.length = pre.length + xs.length := by rw [ha]; simp
  obtain ⟨j, hj⟩ := resize_ok (⟨a.data, cells, 2 * sh.length + 1⟩ : W α) ((xs.length : Int) + 1) (by omega) (by omega)
  unfold W.insert
  rw [e, W.size_of c1 c2 (by omega), hr, hx, cint_ok ⟨by omega, by omega⟩, Outcome.bind_ok, if_neg (by omega), cint_ok ⟨by omega, by omega⟩, Outcome.bind_ok,
    hj, Outcome.bind_ok, W.size_of (grown c1) (grown c2) (by omega), hr, hx, cint_ok ⟨by omega, by omega⟩, Outcome.bind_ok,
    show ((xs.length : Int) - 1 - xs.length).toNat = 0 by omega]
  unfold W.moveUp
  rw [Outcome.bind_ok, cell_of (grown c0), Outcome.bind_ok, cint_ok ⟨by omega, by omega⟩, Outcome.bind_ok]
  unfold store
  rw [if_neg (by omega), if_neg (by simp only; omega)]
  rfl

/-- C155 is false for `unshift` on a view: what is given becomes the offset of the view, and no element changes.  The former offset
    becomes the first dimension, and that dimension the stride. -/
theorem unshift_view_offset {a v : Arr α} {sh : List Int} {off o : Int} {ip : List Int} (h : view a sh off = .ok v) (hip : v.ip = some ip) (ho : offset v = .ok o)
    (k : Nat) (x : Int) (hs : sh.length < 2 ^ 29) :
    ∃ w d, (W.of v.data ip k).unshift x = .ok w ∧ w.data = a.data ∧ w.cell 0 = .ok x ∧ w.shape 0 = .ok o ∧ sh.head? = some d ∧ w.stride 0 = .ok d := by
  obtain ⟨o', d, ds, ip', h1, rfl, h3, rfl, h5, -⟩ := of_view h
  cases ho.symm.trans h1
  cases hip.symm.trans h3
  simp only [List.length_cons] at hs
  have hn : (W.of v.data (o :: d :: ds.prod :: flat ds) k).n = (2 * ds.length + 3 : Nat) := by
    unfold W.of
    simp only [List.length_cons, flat_length]
  obtain ⟨j, hj⟩ := resize_ok (W.of v.data (o :: d :: ds.prod :: flat ds) k) ((2 * ds.length + 4 : Nat) : Int) (by omega) (by omega)
  unfold W.unshift
  rw [hn, show (((2 * ds.length + 3 : Nat) : Int) + 1) = ((2 * ds.length + 4 : Nat) : Int) by push_cast; ring, cint_ok ⟨by omega, by omega⟩, Outcome.bind_ok, hj,
    Outcome.bind_ok]
  refine ⟨_, d, rfl, h5, rfl, ?_, rfl, ?_⟩
  · unfold W.shape
    simp only [show (0 : Int) * 2 + 1 = 1 from rfl]
    rw [if_neg (by omega)]
    unfold W.cell
    simp only [show ((2 * ds.length + 4 : Nat) : Int) - 1 = ((2 * ds.length + 2 + 1 : Nat) : Int) by push_cast; ring, Int.toNat_natCast]
    rfl
  · unfold W.stride
    simp only [show (0 : Int) * 2 + 2 = 2 from rfl]
    rw [if_neg (by omega)]
    unfold W.cell
    simp only [show ((2 * ds.length + 4 : Nat) : Int) - 1 = ((2 * ds.length + 1 + 1 + 1 : Nat) : Int) by push_cast; ring, Int.toNat_natCast]
    rfl

/-- C155 is false for `presize` on a view: no element changes, but the number of dimensions becomes half the size, whatever it was. -/
theorem presize_view_dim {a v : Arr α} {sh : List Int} {off o : Int} {ip : List Int} (h : view a sh off = .ok v) (hip : v.ip = some ip) (ho : offset v = .ok o)
    (k : Nat) {m : Int} (hm : 0 ≤ m) (hm' : m ≤ 2 ^ 30) (h3 : 3 ≤ sh.prod) (hs : sh.prod < 2 ^ 30) :
    ∃ w, (W.of v.data ip k).presize m = .ok w ∧ w.data = a.data ∧ w.size = .ok sh.prod ∧ w.dim = (sh.prod - 1).tdiv 2 := by
  obtain ⟨cells, e, c0, ⟨d, r, c1, c2, hr⟩, -, -, -, -, hsh⟩ := before h hip ho k
  obtain ⟨j, hj⟩ := resize_ok (⟨a.data, cells, 2 * sh.length + 1⟩ : W α) m hm hm'
  obtain ⟨j', hj'⟩ := resize_ok (⟨a.data, cells ++ List.replicate j none, m⟩ : W α) sh.prod (by omega) (by omega)
  refine ⟨⟨a.data, cells ++ List.replicate j none ++ List.replicate j' none, sh.prod⟩, ?_, rfl, ?_, rfl⟩
  · unfold W.presize
    rw [e, W.size_of c1 c2 (by omega), hr, cint_ok ⟨by omega, by omega⟩, Outcome.bind_ok, hj, Outcome.bind_ok, hj']
  · rw [W.size_of (grown (grown c1)) (grown (grown c2)) (by omega), hr, cint_ok ⟨by omega, by omega⟩]


/-- On a view of at most one element `insert` throws: the size cannot be asked for once the description has been resized. -/
theorem insert_small_view {a v : Arr α} {sh : List Int} {off o : Int} {ip : List Int} (h : view a sh off = .ok v) (hip : v.ip = some ip) (ho : offset v = .ok o)
    (k : Nat) (x : α) {p : Nat} (h0 : 0 ≤ sh.prod) (h1 : sh.prod ≤ 1) (hp : p ≤ sh.prod) :
    (W.of v.data ip k).insert x p = .thrown (.rangeError "View::stride(): dimension out of bounds") := by
  obtain ⟨cells, e, c0, ⟨d, r, c1, c2, hr⟩, -, -, -, -, hsh⟩ := before h hip ho k
  obtain ⟨j, hj⟩ := resize_ok (⟨a.data, cells, 2 * sh.length + 1⟩ : W α) (sh.prod + 1) (by omega) (by omega)
  unfold W.insert
  rw [e, W.size_of c1 c2 (by omega), hr, cint_ok ⟨by omega, by omega⟩, Outcome.bind_ok, if_neg (by omega), cint_ok ⟨by omega, by omega⟩, Outcome.bind_ok, hj,
    Outcome.bind_ok, W.size_short (by omega)]
  rfl

/-- After `remove` the size of a view of at most three elements cannot be asked for. -/
theorem remove_small_view {a v : Arr α} {sh : List Int} {off : Int} {ip : List Int} {pre xs post : List α} (h : view a sh off = .ok v) (hip : v.ip = some ip)
    (ho : offset v = .ok pre.length) (ha : a.data = pre ++ xs ++ post) (hx : sh.prod = xs.length) (k : Nat) {i : Nat} (hi : i < xs.length) (h3 : xs.length ≤ 3)
    (hd : a.data.length < 2 ^ 31) :
    ∃ r w, (W.of v.data ip k).remove i = .ok (r, w) ∧ w.size = .thrown (.rangeError "View::stride(): dimension out of bounds") := by
  obtain ⟨cells, e, c0, ⟨d, p, c1, c2, hp⟩, -, -, -, -, hsh⟩ := before h hip ho k
  have hlen : a.data.length = pre.length + xs.length + post.length := by rw [ha, List.length_append, List.length_append]
  obtain ⟨x, hxi, hlx⟩ := load_inside (data := a.data) (i := (i : Int) + pre.length) (by omega) (by omega)
  obtain ⟨data', m1, m2⟩ := moveDown_ok (n := 2 * sh.length + 1) c0 (by omega) (xs.length - (i + 1)) a.data ((i : Int) + 1) (by omega) (by omega) (by omega)
  obtain ⟨j, hj⟩ := resize_ok (⟨data', cells, 2 * sh.length + 1⟩ : W α) ((xs.length : Int) - 1) (by omega) (by omega)
  refine ⟨x, ⟨data', cells ++ List.replicate j none, (xs.length : Int) - 1⟩, ?_, W.size_short (by omega)⟩
  unfold W.remove
  rw [if_neg (by omega), e, W.size_of c1 c2 (by omega), hp, hx, cint_ok ⟨by omega, by omega⟩, Outcome.bind_ok, cint_ok ⟨by omega, by omega⟩, Outcome.bind_ok,
    if_neg (by omega), at_of c0 ⟨by omega, by omega⟩, hlx, Outcome.bind_ok, show ((xs.length : Int) - ((i : Int) + 1)).toNat = xs.length - (i + 1) by omega, m1,
    Outcome.bind_ok, hj, Outcome.bind_ok]

/-- Outside of the view nothing is removed or inserted: behind the last element `remove` throws, and `insert` one further on; before the first one `remove`
    fails its assertion. -/
theorem edit_view_outside {a v : Arr α} {sh : List Int} {off o : Int} {ip : List Int} (h : view a sh off = .ok v) (hip : v.ip = some ip) (ho : offset v = .ok o)
    (k : Nat) (h0 : 0 ≤ sh.prod) (hs : sh.prod < 2 ^ 31) :
    (∀ i : Int, sh.prod ≤ i → (W.of v.data ip k).remove i = .thrown (.rangeError "remove(): index too large")) ∧
      (∀ i : Int, i < 0 → (W.of v.data ip k).remove i = .abort) ∧
      (∀ (x : α) (p : Nat), sh.prod < p → (W.of v.data ip k).insert x p = .thrown (.rangeError "insert(): index too large")) := by
  obtain ⟨cells, e, c0, ⟨d, r, c1, c2, hr⟩, -, -, -, -, hsh⟩ := before h hip ho k
  refine ⟨fun i hi => ?_, fun i hi => ?_, fun x p hp => ?_⟩
  · unfold W.remove
    rw [if_neg (by omega), e, W.size_of c1 c2 (by omega), hr, cint_ok ⟨by omega, by omega⟩, Outcome.bind_ok, cint_ok ⟨by omega, by omega⟩, Outcome.bind_ok,
      if_pos (by omega)]
  · unfold W.remove
    rw [if_pos hi]
  · unfold W.insert
    rw [e, W.size_of c1 c2 (by omega), hr, cint_ok ⟨by omega, by omega⟩, Outcome.bind_ok, if_pos (by omega)]

/-- C155: an element removed or inserted makes the view smaller or larger by one. -/
def RemoveShrinks : Prop := ∀ (a v : Arr Int) (sh : List Int) (off : Int) (ip : List Int) (k i : Nat) (r : Int) (w : W Int), view a sh off = .ok v → v.ip = some ip →
  (W.of v.data ip k).remove i = .ok (r, w) → w.size = .ok (sh.prod - 1)

def InsertGrows : Prop := ∀ (a v : Arr Int) (sh : List Int) (off : Int) (ip : List Int) (k p : Nat) (x : Int) (w : W Int), view a sh off = .ok v → v.ip = some ip →
  (W.of v.data ip k).insert x p = .ok w → w.size = .ok (sh.prod + 1)

/-- Neither is so. -/
theorem view_size_kept : ¬ RemoveShrinks ∧ ¬ InsertGrows := by
  refine ⟨fun h => ?_, fun h => ?_⟩
  · obtain ⟨r, w, -, e, -, hw⟩ := remove_view_partial (a := tens) (v := ⟨tens.data, some [1, 2, 2, 2, 1]⟩) (sh := [2, 2]) (off := 1) (pre := [10]) (xs := [11, 12, 13, 14])
      (post := [15]) (i := 1) (by rfl) rfl (by rfl) rfl rfl 3 (by decide) (by decide) (by decide) (by decide)
    have := hw.symm.trans (h tens ⟨tens.data, some [1, 2, 2, 2, 1]⟩ [2, 2] 1 _ 3 1 r w (by rfl) rfl e)
    exact absurd this (by decide)
  · obtain ⟨w, e, -, hw⟩ := insert_view_loses (a := tens) (v := ⟨tens.data, some [1, 2, 2, 2, 1]⟩) (sh := [2, 2]) (off := 1) (pre := [10]) (xs := [11, 12, 13, 14])
      (post := [15]) (p := 1) (by rfl) rfl (by rfl) rfl rfl 3 99 (by decide) (by decide) (by decide) (by decide)
    have := hw.symm.trans (h tens ⟨tens.data, some [1, 2, 2, 2, 1]⟩ [2, 2] 1 _ 3 1 99 w (by rfl) rfl e)
    exact absurd this (by decide)

/-! ## Cases that meet the hypotheses: elements 1 to 4 of six as a matrix of two rows, and views of one, of three and of the last elements -/

example : ∃ v ip w, view tens [2, 2] 1 = .ok v ∧ v.ip = some ip ∧ (W.of v.data ip 3).insert 99 1 = .ok w ∧ w.data = [10, 11, 99, 12, 13, 15] ∧ w.size = .ok 4 := by
  obtain ⟨w, e, h1, h2⟩ := insert_view_loses (a := tens) (v := ⟨tens.data, some [1, 2, 2, 2, 1]⟩) (sh := [2, 2]) (off := 1) (pre := [10]) (xs := [11, 12, 13, 14])
    (post := [15]) (p := 1) (by rfl) rfl (by rfl) rfl rfl 3 99 (by decide) (by decide) (by decide) (by decide)
  exact ⟨⟨tens.data, some [1, 2, 2, 2, 1]⟩, _, w, by rfl, rfl, e, h1, h2⟩

example : ∃ v ip r w, view tens [2, 2] 1 = .ok v ∧ v.ip = some ip ∧ (W.of v.data ip 3).remove 1 = .ok (r, w) ∧ r = 12 ∧ w.data = [10, 11, 13, 14, 14, 15] ∧
    w.size = .ok 4 := by
  obtain ⟨r, w, h0, e, h1, h2⟩ := remove_view_partial (a := tens) (v := ⟨tens.data, some [1, 2, 2, 2, 1]⟩) (sh := [2, 2]) (off := 1) (pre := [10])
    (xs := [11, 12, 13, 14]) (post := [15]) (i := 1) (by rfl) rfl (by rfl) rfl rfl 3 (by decide) (by decide) (by decide) (by decide)
  cases h0
  exact ⟨⟨tens.data, some [1, 2, 2, 2, 1]⟩, _, _, w, by rfl, rfl, e, rfl, h1, h2⟩

example : ∃ v ip, view tens [4] 2 = .ok v ∧ v.ip = some ip ∧ offset v = .ok ([(10 : Int), 11].length : Int) ∧ tens.data = [10, 11] ++ [12, 13, 14, 15] ∧
    ([4] : List Int).prod = [(12 : Int), 13, 14, 15].length := ⟨_, _, by rfl, rfl, by rfl, rfl, rfl⟩

example : ∃ v ip, view tens [1] 2 = .ok v ∧ v.ip = some ip ∧ offset v = .ok 2 ∧ (0 : Int) ≤ ([1] : List Int).prod ∧ ([1] : List Int).prod ≤ 1 :=
  ⟨_, _, by rfl, rfl, by rfl, by decide, by decide⟩

example : ∃ v ip, view tens [3] 1 = .ok v ∧ v.ip = some ip ∧ offset v = .ok ([(10 : Int)].length : Int) ∧ tens.data = [10] ++ [11, 12, 13] ++ [14, 15] ∧
    ([3] : List Int).prod = [(11 : Int), 12, 13].length := ⟨_, _, by rfl, rfl, by rfl, rfl, rfl⟩

/-- The hypotheses of `edit_view_outside` are met. -/
example : ∃ v ip, view tens [4] 2 = .ok v ∧ v.ip = some ip ∧ offset v = .ok 2 ∧ (0 : Int) ≤ ([4] : List Int).prod ∧ ([4] : List Int).prod < 2 ^ 31 ∧
    ([4] : List Int).prod ≤ 4 :=
  ⟨_, _, rfl, rfl, rfl, by decide, by decide, by decide⟩

#print axioms remove_view_partial
#print axioms insert_view_loses
#print axioms insert_view_behind
#print axioms insert_view_undefined
#print axioms unshift_view_offset
#print axioms presize_view_dim
#print axioms insert_small_view
#print axioms remove_small_view
#print axioms edit_view_outside
#print axioms view_size_kept

end Libube.View

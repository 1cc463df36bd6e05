import Verif.Lemmas.View

/-! # C27, C51-C54, C80: views -/

namespace Libube.View

open ViewSpec

/-- Arrays of fewer than 2^31 elements; the only ones there are, as sizes are `int`. -/
abbrev Small (a : Arr α) : Prop := (a.data.length : Int) < 2 ^ 31

/-- A plain array of six elements, and the 2 by 2 view of its elements 1 to 4. -/
def six : Arr Nat := ⟨[10, 11, 12, 13, 14, 15], none⟩
def square : Arr Nat := ⟨[10, 11, 12, 13, 14, 15], some [1, 2, 2, 2, 1]⟩

/-! ## C51 -/

/-- C51 for offsets that are not negative: whenever a view has been made, of an array or of
    another view, each in-range multi-index reads an element of the array, namely the one at the
    offsets plus the row-major position.  Missing for the full claim: negative offsets
    (`negative_offset_accepted`) and shapes whose product overflows (`view_outcomes`). -/
theorem view_inside_partial (a : Arr α) (ha : Small a) (sh : List Int) (off b : Int) (v : Arr α)
    (hv : view a sh off = .ok v) (hb : offset a = .ok b) (h0 : 0 ≤ b + off)
    (i : Int) (is : List Int) (hi : InRange sh (i :: is)) :
    0 ≤ b + off + pos sh (i :: is) ∧ b + off + pos sh (i :: is) < a.data.length ∧
    ∃ x, a.data[(b + off + pos sh (i :: is)).toNat]? = some x ∧ get v i is = .ok x := by
  obtain ⟨b', hb', hd, hs, hl, ho⟩ := view_shape hv
  cases hb.symm.trans hb'
  have hp := InRange.pos_range hi
  obtain ⟨x, hx, hlx⟩ := load_inside (data := a.data) (i := b + off + pos sh (i :: is)) (by omega) (by omega)
  refine ⟨by omega, by omega, x, hx, ?_⟩
  have := hs.get_eq ho (by omega) i is [] hi
  rw [List.append_nil, hd] at this
  rw [this, hlx]

example : Small six ∧ view six [2, 2] 1 = .ok square ∧ offset six = .ok 0 ∧ (0 : Int) ≤ 0 + 1 ∧
    InRange [2, 2] [1, 0] ∧ get square 1 [0] = .ok 13 := by decide

/-- Making a view never does anything but return, throw, or overflow; and it overflows only if
    the offset, a product of trailing dimensions, or the end of the view is no `int`. -/
theorem view_outcomes (a : Arr α) (sh : List Int) (off b : Int) (hb : offset a = .ok b) :
    (∃ v, view a sh off = .ok v) ∨ (∃ m, view a sh off = .thrown (.error m)) ∨
    (view a sh off = .ub .overflow ∧
      (¬(-2 ^ 31 ≤ b + off ∧ b + off < 2 ^ 31) ∨ ¬Fits sh ∨
        ¬(-2 ^ 31 ≤ sh.prod + (b + off) ∧ sh.prod + (b + off) < 2 ^ 31))) := by
  unfold view baseOffset
  rw [hb]
  simp only [Outcome.bind_ok]
  rw [mkView_eq]
  by_cases hc : -2 ^ 31 ≤ b + off ∧ b + off < 2 ^ 31
  · rw [cint_ok hc]
    simp only [Outcome.bind]
    by_cases hn : sh = []
    · rw [if_pos hn]; exact .inr (.inl ⟨_, rfl⟩)
    · rw [if_neg hn]
      by_cases hf : Fits sh
      · rw [if_pos hf]
        by_cases hq : -2 ^ 31 ≤ sh.prod + (b + off) ∧ sh.prod + (b + off) < 2 ^ 31
        · rw [cint_ok hq]
          simp only []
          split
          · exact .inr (.inl ⟨_, rfl⟩)
          · exact .inl ⟨_, rfl⟩
        · rw [cint_bad hq]; exact .inr (.inr ⟨rfl, .inr (.inr hq)⟩)
      · rw [if_neg hf]; exact .inr (.inr ⟨rfl, .inr (.inl hf)⟩)
  · rw [cint_bad hc]; exact .inr (.inr ⟨rfl, .inl hc⟩)

example : offset six = .ok 0 ∧ view six [65536, 65536] 0 = .ub .overflow := by decide

/-- Making a view succeeds if the view fits in the array: no dimension is negative and the offset
    plus the number of elements is at most the size. -/
theorem view_made (a : Arr α) (ha : Small a) (sh : List Int) (hn : sh ≠ []) (hp : ∀ d ∈ sh, 0 < d)
    (off b : Int) (hb : offset a = .ok b) (h0 : 0 ≤ b + off) (h1 : b + off + sh.prod ≤ a.data.length) :
    ∃ v, view a sh off = .ok v := by
  have hf : ∀ t : List Int, (∀ d ∈ t, 0 < d) → t.prod < 2 ^ 31 → Fits t := by
    intro t ht hl
    induction t with
    | nil => trivial
    | cons d ds ih =>
      have h2 : 0 < ds.prod := prod_pos fun x hx => ht x (by simp [hx])
      have h3 : 1 ≤ d := ht d (by simp)
      rw [List.prod_cons] at hl
      refine ⟨⟨?_, by rw [List.prod_cons]; exact hl⟩, ih (fun x hx => ht x (by simp [hx])) ?_⟩
      · have := prod_pos ht; omega
      · nlinarith
  have := prod_pos hp
  exact ⟨_, view_make hb (by omega) hn (hf sh hp (by omega)) ha (by omega) (by omega)⟩

example : Small six ∧ (∀ d ∈ [(2 : Int), 3], 0 < d) ∧ (0 : Int) + 0 + [(2 : Int), 3].prod ≤ six.data.length := by decide

/-- C51 is false for negative offsets: for every non-empty array the view of one element at
    offset -1 is made without complaint, and reading its only element reads outside of the array. -/
theorem negative_offset_accepted (a : Arr α) (ha : Small a) (hp : a.ip = none) :
    ∃ v, view a [1] (-1) = .ok v ∧ InRange [1] [0] ∧ get v 0 [] = .ub .outOfBounds := by
  have hb : offset a = .ok 0 := by unfold offset; rw [hp]
  have hv := view_make (a := a) (sh := [1]) (off := -1) hb (by decide) (by decide) (by decide) ha (by decide)
    (by simp)
  refine ⟨_, hv, by decide, ?_⟩
  obtain ⟨b', hb', hd, hs, hl, ho⟩ := view_shape hv
  cases hb.symm.trans hb'
  have := hs.get_eq ho (by decide) 0 [] [] (by decide)
  rw [List.append_nil] at this
  rw [this]
  rfl

example : Small six ∧ six.ip = none := by decide

/-! ## C52 -/

/-- C52: where element (i1,..,in) of a view lies.  Distinct in-range multi-indices have distinct
    positions, and every position below the number of elements is taken. -/
theorem row_major (sh : List Int) (hp : ∀ d ∈ sh, 0 < d) :
    (∀ is, InRange sh is → 0 ≤ pos sh is ∧ pos sh is < sh.prod) ∧
    (∀ is js, InRange sh is → InRange sh js → pos sh is = pos sh js → is = js) ∧
    (∀ k, 0 ≤ k → k < sh.prod → ∃ is, InRange sh is ∧ pos sh is = k) :=
  ⟨fun _ h => InRange.pos_range h, fun _ _ h g => pos_injective h g,
   fun _ h0 h1 => pos_surjective hp h0 h1⟩

example : (∀ d ∈ [(2 : Int), 3, 4], 0 < d) ∧ pos [2, 3, 4] [1, 2, 3] = 23 ∧ InRange [2, 3, 4] [1, 2, 3] := by decide

/-- C52: indexing a view reads the array at offset plus row-major position. -/
theorem view_reads (a : Arr α) (ha : Small a) (sh : List Int) (off b : Int) (v : Arr α)
    (hv : view a sh off = .ok v) (hb : offset a = .ok b)
    (i : Int) (is : List Int) (hi : InRange sh (i :: is)) :
    get v i is = load a.data (b + off + pos sh (i :: is)) := by
  obtain ⟨b', hb', hd, hs, hl, ho⟩ := view_shape hv
  cases hb.symm.trans hb'
  have := hs.get_eq ho (by have := ha; omega) i is [] hi
  rw [List.append_nil, hd] at this
  exact this

example : view square [3] 1 = .ok ⟨square.data, some [2, 3, 1]⟩ ∧ offset square = .ok 1 ∧ InRange [3] [2] ∧
    load square.data (1 + 1 + pos [3] [2]) = .ok 14 := by decide

/-! ## C53 -/

/-- C53 for the right number of components whose first one does not overflow when multiplied by
    its stride: access succeeds exactly for the in-range ones and throws for all others.  Missing
    for the full claim: too many components (`extra_components_ignored`), too few
    (`missing_components_undefined`), and overflow (`index_overflow`). -/
theorem out_of_range_throws_partial (a : Arr α) (sh : List Int) (off : Int) (v : Arr α)
    (hv : view a sh off = .ok v) (i : Int) (is : List Int) (hl : (i :: is).length = sh.length)
    (hm : -2 ^ 31 ≤ i * sh.tail.prod ∧ i * sh.tail.prod < 2 ^ 31) :
    (InRange sh (i :: is) → index v i is = .ok (pos sh (i :: is))) ∧
    (¬InRange sh (i :: is) → index v i is = .thrown (.error "var::bounds(): index")) := by
  obtain ⟨b, hb, hd, hs, hl', ho⟩ := view_shape hv
  constructor
  · intro h
    have := hs.index_ok i is [] h
    rwa [List.append_nil] at this
  · intro h
    have := hs.index_bad i is [] hl hm h
    rwa [List.append_nil] at this

example : view six [2, 2] 1 = .ok square ∧ ¬InRange [2, 2] [1, 2] ∧
    (-2 ^ 31 ≤ (1 : Int) * [(2 : Int), 2].tail.prod ∧ (1 : Int) * [(2 : Int), 2].tail.prod < 2 ^ 31) ∧
    index square 1 [2] = .thrown (.error "var::bounds(): index") := by decide

/-- The same for plain arrays, which have one dimension. -/
theorem out_of_range_throws_plain (a : Arr α) (ha : Small a) (hp : a.ip = none) (i : Int)
    (hm : -2 ^ 31 ≤ i ∧ i < 2 ^ 31) :
    (0 ≤ i ∧ i < a.data.length → ∃ x, a.data[i.toNat]? = some x ∧ get a i [] = .ok x) ∧
    (¬(0 ≤ i ∧ i < a.data.length) → get a i [] = .thrown (.error "var::bounds(): index")) := by
  have hs : HasShape a 0 [(a.data.length : Int)] := .plain hp ha
  constructor
  · intro h
    have hi : InRange [(a.data.length : Int)] [i] := ⟨h.1, h.2, trivial⟩
    have := hs.get_eq (by decide) (by simpa using ha) i [] [] hi
    rw [List.append_nil] at this
    obtain ⟨x, hx, hlx⟩ := load_inside h.1 h.2
    refine ⟨x, hx, ?_⟩
    rw [this]
    simpa [pos] using hlx
  · intro h
    have := hs.index_bad i [] [] rfl (by simpa using hm) (fun hc => h ⟨hc.1, hc.2.1⟩)
    rw [List.append_nil] at this
    unfold get
    rw [this]; rfl

example : Small six ∧ six.ip = none ∧ get six 3 [] = .ok 13 ∧
    get six 6 [] = .thrown (.error "var::bounds(): index") := by decide

/-- C53 is false for too many components: whatever follows the components that count is ignored. -/
theorem extra_components_ignored (a : Arr α) (sh : List Int) (off : Int) (v : Arr α)
    (hv : view a sh off = .ok v) (i : Int) (is extra : List Int) (hi : InRange sh (i :: is)) :
    index v i (is ++ extra) = .ok (pos sh (i :: is)) := by
  obtain ⟨b, hb, hd, hs, hl', ho⟩ := view_shape hv
  exact hs.index_ok i is extra hi

example : view six [2, 2] 1 = .ok square ∧ InRange [2, 2] [1, 0] ∧ get square 1 [0, 100, -7] = .ok 13 := by decide

/-- C53 is false for too few components: the missing one is fetched all the same. -/
theorem missing_components_undefined :
    view six [2, 2] 1 = .ok square ∧ get square 1 [] = .ub .uninit := by decide

/-- C53 is false for a first component so far out of range that its multiple overflows: the
    product is formed before the check. -/
theorem index_overflow :
    view six [2, 2] 1 = .ok square ∧ ¬InRange [2, 2] [2 ^ 30, 0] ∧ get square (2 ^ 30) [0] = .ub .overflow := by
  decide

/-! ## C54 -/

/-- C54: element `j` of `subview(d, o)` is the element of the array `o` plus the position of `j`
    in the trailing `d` dimensions behind the first element of the view. -/
theorem subview_reads (a : Arr α) (ha : Small a) (sh : List Int) (off b : Int) (v w : Arr α)
    (hv : view a sh off = .ok v) (hb : offset a = .ok b) (d : Nat) (hd : 1 ≤ d) (o : Int)
    (hw : subview v d o = .ok w) (j : Int) (js : List Int)
    (hj : InRange (sh.drop (sh.length - d)) (j :: js)) :
    get w j js = load a.data (b + off + (o + pos (sh.drop (sh.length - d)) (j :: js))) := by
  obtain ⟨b', hb', hd', hs, hl, ho⟩ := view_shape hv
  cases hb.symm.trans hb'
  rw [hs.subview d hd] at hw
  have := view_reads v (by rw [Small, hd']; exact ha) _ o _ w hw hs.offset j js hj
  rw [this, hd']
  congr 1
  ring

example : Small six ∧ view six [2, 2] 1 = .ok square ∧ offset six = .ok 0 ∧
    subview square 1 2 = .ok ⟨square.data, some [3, 2, 1]⟩ ∧
    InRange ([(2 : Int), 2].drop ([(2 : Int), 2].length - 1)) [1] ∧ get (⟨square.data, some [3, 2, 1]⟩ : Arr Nat) 1 [] = .ok 14 := by decide

/-- C54, the use made of it: with the offset at which the leading indices `i` point, the sub-view
    of the trailing dimensions exists and its element `j` is element `i, j` of the view. -/
theorem subview_row (a : Arr α) (ha : Small a) (lead trail : List Int) (off b : Int) (v : Arr α)
    (hp : ∀ x ∈ lead ++ trail, 0 < x) (ht : trail ≠ [])
    (hv : view a (lead ++ trail) off = .ok v) (hb : offset a = .ok b) (h0 : 0 ≤ b + off)
    (i : Int) (is : List Int) (hi : InRange lead (i :: is)) :
    ∃ w, subview v trail.length (pos lead (i :: is) * trail.prod) = .ok w ∧
      ∀ j js, InRange trail (j :: js) → get w j js = get v i (is ++ j :: js) := by
  obtain ⟨b', hb', hd', hs, hl, ho⟩ := view_shape hv
  cases hb.symm.trans hb'
  have hdr : (lead ++ trail).drop ((lead ++ trail).length - trail.length) = trail := by simp
  have htp : 0 < trail.prod := prod_pos fun x hx => hp x (by simp [hx])
  have hr := InRange.pos_range hi
  rw [List.prod_append] at hl
  have hle : (pos lead (i :: is) + 1) * trail.prod ≤ lead.prod * trail.prod :=
    mul_le_mul_of_nonneg_right (by omega) htp.le
  rw [show (pos lead (i :: is) + 1) * trail.prod = pos lead (i :: is) * trail.prod + trail.prod by ring] at hle
  have h1 : 0 ≤ pos lead (i :: is) * trail.prod := mul_nonneg hr.1 htp.le
  obtain ⟨w, hw⟩ := view_made v (by rw [Small, hd']; exact ha) trail ht (fun x hx => hp x (by simp [hx]))
    (pos lead (i :: is) * trail.prod) (b + off) hs.offset (by omega) (by rw [hd']; omega)
  refine ⟨w, ?_, fun j js hj => ?_⟩
  · have hlen : 1 ≤ trail.length := by
      cases trail
      · exact absurd rfl ht
      · simp
    rw [hs.subview _ hlen, hdr]; exact hw
  · have h2 := view_reads v (by rw [Small, hd']; exact ha) _ _ _ w hw hs.offset j js hj
    have hij := InRange.append hi hj
    have h3 := view_reads a ha _ off b v hv hb i (is ++ j :: js) hij.1
    rw [h2, h3, hd']
    congr 1
    rw [← List.cons_append, hij.2]; ring

example : Small six ∧ (∀ x ∈ [(2 : Int)] ++ [2], 0 < x) ∧ view six ([2] ++ [2]) 1 = .ok square ∧
    InRange [2] [1] ∧ pos [2] [1] * [(2 : Int)].prod = 2 := by decide

/-! ## C80 -/

/-- C80 for offsets that are not negative: moving a view with `offset(k)` throws if the view
    would end outside of the array, and otherwise its elements are those from `k` on.  Missing
    for the full claim: negative offsets (`negative_move_accepted`). -/
theorem move_inside_partial (a : Arr α) (ha : Small a) (sh : List Int) (hp : ∀ d ∈ sh, 0 < d) (off : Int) (v : Arr α)
    (hv : view a sh off = .ok v) (k : Int) (h0 : 0 ≤ k) (hk : k + sh.prod < 2 ^ 31) :
    (k + sh.prod > a.data.length → setOffset v k = .thrown (.error "View::offset(): offset too large")) ∧
    (k + sh.prod ≤ a.data.length → ∃ w, setOffset v k = .ok w ∧
      ∀ i is, InRange sh (i :: is) →
        ∃ x, a.data[(k + pos sh (i :: is)).toNat]? = some x ∧ get w i is = .ok x) := by
  obtain ⟨b, hb, hd, hs, hl, ho⟩ := view_shape hv
  have hpp := prod_pos hp
  obtain ⟨ip, hip⟩ := view_ip hv
  have hi := hs.ip hip
  obtain ⟨hf, hn⟩ := hs.fits
  have e : setOffset v k = if k + sh.prod > (v.data.length : Int) then
      .thrown (.error "View::offset(): offset too large") else .ok ⟨v.data, some (k :: flat sh)⟩ := by
    unfold setOffset
    rw [hi]
    simp only [hs.size, Outcome.bind_ok]
    rw [cint_ok (by omega)]
    rfl
  rw [hd] at e
  constructor
  · intro h; rw [e, if_pos h]
  · intro h
    refine ⟨_, by rw [e, if_neg (by omega)], fun i is hi' => ?_⟩
    have hw : HasShape (⟨a.data, some (k :: flat sh)⟩ : Arr α) k sh := .view _ _ rfl hf hn
    have hr := InRange.pos_range hi'
    obtain ⟨x, hx, hlx⟩ := load_inside (data := a.data) (i := k + pos sh (i :: is)) (by omega) (by omega)
    refine ⟨x, hx, ?_⟩
    have := hw.get_eq (by omega) (by have := ha; omega) i is [] hi'
    rw [List.append_nil] at this
    rw [this]; exact hlx

example : Small six ∧ (∀ d ∈ [(2 : Int), 2], 0 < d) ∧ view six [2, 2] 1 = .ok square ∧
    (2 : Int) + [(2 : Int), 2].prod ≤ six.data.length ∧
    setOffset square 3 = .thrown (.error "View::offset(): offset too large") := by decide

/-- C80 is false for negative offsets: `advance(-2)` on a view that starts at 1 is accepted, and
    its first element is no element of the array. -/
theorem negative_move_accepted :
    view six [2, 2] 1 = .ok square ∧
    ∃ w, advance square (-2) = .ok w ∧ InRange [2, 2] [0, 0] ∧ get w 0 [0] = .ub .outOfBounds :=
  ⟨by decide, ⟨square.data, some [-1, 2, 2, 2, 1]⟩, by decide, by decide, by decide⟩

/-! ## C27 -/

/-- C27 is false: views are compared by offset and shape only.  For any two arrays of the same
    size, views of them made with the same arguments are equal, whatever the elements. -/
theorem view_equality_ignores_elements (a b : Arr Val) (hp : a.ip = none) (hq : b.ip = none)
    (hl : a.data.length = b.data.length) (sh : List Int) (off : Int) (v w : Arr Val)
    (hv : view a sh off = .ok v) (hw : view b sh off = .ok w) (n : Nat) :
    neqArr (n + 1) v w = .ok false := by
  have e : v.ip = w.ip := by
    unfold view baseOffset offset at hv hw
    rw [hp] at hv; rw [hq] at hw
    simp only [Outcome.bind_ok, hl] at hv hw
    cases hm : mkView b.data.length 0 sh off with
    | ok ip => rw [hm] at hv hw; cases hv; cases hw; rfl
    | thrown e => rw [hm] at hv; cases hv
    | ub e => rw [hm] at hv; cases hv
    | abort => rw [hm] at hv; cases hv
    | diverge => rw [hm] at hv; cases hv
  obtain ⟨b', hb', hd', hs, hl', ho⟩ := view_shape hv
  obtain ⟨b'', hb'', hd'', hs', hl'', ho'⟩ := view_shape hw
  unfold neqArr
  simp only [hs.size, hs'.size, Outcome.bind_ok]
  rw [if_neg (by simp)]
  obtain ⟨ip, hip⟩ := view_ip hv
  unfold heapAt
  rw [← e, hip]
  simp only []
  clear hip e
  induction ip with
  | nil => rfl
  | cons x xs ih =>
    simp only [List.map_cons, neqLoop]
    have : neq (n + 1) (.int (BitVec.ofInt 32 x)) (.int (BitVec.ofInt 32 x)) = .ok false := by
      simp [neq]
    rw [this]
    simpa using ih

example : ∃ v w, view (⟨[.int 1, .int 2], none⟩ : Arr Val) [2] 0 = .ok v ∧ view (⟨[.int 3, .int 4], none⟩ : Arr Val) [2] 0 = .ok w ∧
    neqArr 1 v w = .ok false :=
  ⟨_, _, rfl, rfl, rfl⟩

/-- C27 is false the other way too: two views of the same elements at different places of one
    array differ, because their offsets do. -/
theorem same_elements_differ (n : Nat) :
    ∃ v w, view (⟨[.int 7, .int 7], none⟩ : Arr Val) [1] 0 = .ok v ∧
      view (⟨[.int 7, .int 7], none⟩ : Arr Val) [1] 1 = .ok w ∧
      get v 0 [] = get w 0 [] ∧ neqArr (n + 1) v w = .ok true :=
  ⟨_, _, rfl, rfl, rfl, rfl⟩

/-- C27 holds for arrays that are not views and contain integers (the general statement about
    arrays that are not views is C25). -/
theorem array_equality_partial (xs ys : List (BitVec 32)) (n : Nat) :
    neqArr (n + 1) ⟨xs.map .int, none⟩ ⟨ys.map .int, none⟩ = .ok (decide (xs ≠ ys)) := by
  unfold neqArr size heapAt
  simp only [Outcome.bind_ok, List.length_map]
  by_cases h : xs.length = ys.length
  · rw [if_neg (by simpa using h)]
    induction xs generalizing ys with
    | nil => cases ys with
      | nil => rfl
      | cons => simp at h
    | cons x xs ih => cases ys with
      | nil => simp at h
      | cons y ys =>
        simp only [List.map_cons, neqLoop]
        have : neq (n + 1) (.int x) (.int y) = .ok (x != y) := by simp [neq, Val.type, Val.size]
        rw [this]
        by_cases hxy : x = y
        · subst hxy
          simp only [bne_self_eq_false, Outcome.bind_ok]
          have := ih ys (by simpa using h)
          simpa using this
        · simp [hxy]
  · rw [if_pos (by simpa using h)]
    have : xs ≠ ys := fun e => h (by rw [e])
    simp [this]

example : neqArr 1 ⟨[(1 : BitVec 32), 2].map .int, none⟩ ⟨[(1 : BitVec 32), 3].map .int, none⟩ = .ok true := rfl

#print axioms view_inside_partial
#print axioms view_outcomes
#print axioms view_made
#print axioms negative_offset_accepted
#print axioms row_major
#print axioms view_reads
#print axioms out_of_range_throws_partial
#print axioms out_of_range_throws_plain
#print axioms extra_components_ignored
#print axioms missing_components_undefined
#print axioms index_overflow
#print axioms subview_reads
#print axioms subview_row
#print axioms move_inside_partial
#print axioms negative_move_accepted
#print axioms view_equality_ignores_elements
#print axioms same_elements_differ
#print axioms array_equality_partial

end Libube.View

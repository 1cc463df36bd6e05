import Verif.Lemmas.MemFind
import Verif.Props.MemCompare

/-! # Finding data in a variable (C171) -/

namespace Libube.MemProps

open Mem MemSpec OrderSpec

variable {α : Type}

attribute [local instance] intEnv

theorem holds_parts {N : Numbers α} {mem : List (Option (Obj α))} {w : V α} {x : Val} {l : List Val} (h : HoldsVal N mem w x) (hl : parts x = some l) : ∃ a, w = .arr a := by
  cases h with
  | nil => cases hl
  | @num k c _ h => cases k <;> simp [scalarVal] at h <;> subst h <;> simp [parts] at hl
  | str _ _ _ _ | nums _ _ _ | list _ _ _ _ _ | map _ _ _ _ _ _ => exact ⟨_, rfl⟩

/-- What searching gives, whatever the values: what it gives for the values alone, and memory is as it was. -/
theorem search_values [Env α] (N : Numbers α) {s : State α} (hr : Reach s) {m k : Nat} {x y : Val} {l : List Val} (hx : HasValue N s m x) (hl : parts x = some l)
    (hy : HasValue N s k y) (n : Nat) : indexOf N n m k s = liftO (index n x y) s ∧ binaryOf N n m k s = liftO (binary n (searched x) y) s := by
  obtain ⟨v, v', h1, h0, h2, h3⟩ := value_deno hr hx
  obtain ⟨w, w', g1, g0, g2, g3⟩ := value_deno hr hy
  have hc := reach_counted hr
  obtain ⟨a, rfl⟩ := holds_parts h3 hl
  have hm : ∀ mem, readLoc (.slot m) ⟨mem, s.stk ++ [w]⟩ = .ok v ⟨mem, s.stk ++ [w]⟩ := by
    intro mem
    have : s.stk[m]? = some v := by
      simp only [readLoc] at h1
      cases hs : s.stk[m]? with
      | none => rw [hs] at h1; cases h1
      | some u => rw [hs] at h1; cases h1; rfl
    have hlt := (List.getElem?_eq_some_iff.1 this).1
    simp only [readLoc, List.getElem?_append_left hlt, this]
  have hw : ∀ mem, readLoc (.slot s.stk.length) ⟨mem, s.stk ++ [w]⟩ = .ok w ⟨mem, s.stk ++ [w]⟩ := by
    intro mem; simp [readLoc]
  constructor
  · unfold indexOf
    rw [bind_eq g1, bind_eq (copy_bump (mem := s.mem) (stk := s.stk) g0)]
    refine with_lift hc g0 ?_
    rw [bind_eq (hm _), bind_eq (hw _)]
    exact indexV_lift N n (bump_counted _ hc) (bump_alive _ h0) (bump_deno _ h2) (bump_holds _ h3) (bump_alive _ g0) (bump_deno _ g2) (bump_holds _ g3)
  · unfold binaryOf
    rw [bind_eq g1, bind_eq (copy_bump (mem := s.mem) (stk := s.stk) g0)]
    refine with_lift hc g0 ?_
    rw [bind_eq (hm _), bind_eq (hw _)]
    exact binaryV_lift N n (bump_counted _ hc) (bump_alive _ h0) (bump_deno _ h2) (bump_holds _ h3) (bump_alive _ g0) (bump_deno _ g2) (bump_holds _ g3)

/-- C171: `x.index(y)` is the first place of an array whose element is the same as `y`, or -1 if there is none, and nothing changes.
    Missing: elements that are nil or contain it (`find_nil_undefined`), complex numbers of double precision; numbers in place of arrays are in `find_number`. -/
theorem find_partial [Env α] (N : Numbers α) {s : State α} (hr : Reach s) {m k : Nat} {x y : Val} {l : List Val} (hx : HasValue N s m x) (hl : parts x = some l)
    (hm : ∀ ps, x ≠ .map ps) (hy : HasValue N s k y) (py : Plain y) (n : Nat) (pl : ∀ z ∈ l, Plain z ∧ depth z < n) :
    (∃ (j : Nat) (h : j < l.length), indexOf N n m k s = .ok (j : Int) s ∧ Same l[j] y ∧ ∀ (i : Nat) (hi : i < j), ¬ Same l[i] y) ∨
      (indexOf N n m k s = .ok (-1) s ∧ ∀ z ∈ l, ¬ Same z y) := by
  have hi : x.items = l := by
    cases x <;> simp [parts] at hl <;> subst hl <;> simp [Val.items, Val.type, Val.elems]
  have hd : x.defined := by
    cases x <;> simp [parts] at hl <;> rfl
  rw [(search_values N hr hx hl hy n).1]
  subst hi
  rcases Order.index_array_partial x y hd hm py n pl with ⟨j, h, h1, h2, h3⟩ | ⟨h1, h2⟩
  · exact .inl ⟨j, h, by rw [h1]; rfl, h2, h3⟩
  · exact .inr ⟨by rw [h1]; rfl, h2⟩

/-- Of a map whose keys are in order, `x.index(y)` is the place of the key that is the same as `y`, or -1 if there is none. -/
theorem find_key [Env α] (N : Numbers α) {s : State α} (hr : Reach s) {m k : Nat} {ps : List (Val × Val)} {y : Val} (hx : HasValue N s m (.map ps))
    (hy : HasValue N s k y) (ky : OrderSpec.IsKey y) (kx : ∀ p ∈ ps, OrderSpec.IsKey p.1) (ho : ps.Pairwise fun p q => KeyLt p.1 q.1) (n : Nat) (hn : 2 ≤ n) :
    (∃ (j : Nat) (h : j < ps.length), indexOf N n m k s = .ok (j : Int) s ∧ SameKey ps[j].1 y) ∨
      (indexOf N n m k s = .ok (-1) s ∧ ∀ p ∈ ps, ¬ SameKey p.1 y) := by
  rw [(search_values N hr hx (l := ps.map fun p => p.2) rfl hy n).1]
  rcases Order.index_map_partial ps y ky kx ho n hn with ⟨j, h, h1, h2⟩ | ⟨h1, h2⟩
  · exact .inl ⟨j, h, by rw [h1]; rfl, h2⟩
  · exact .inr ⟨by rw [h1]; rfl, h2⟩

/-- Of an array of keys in order, `x.binary(y)` is the number of those before `y`. -/
theorem binary_counts [Env α] (N : Numbers α) {s : State α} (hr : Reach s) {m k : Nat} {x y : Val} {l : List Val} (hx : HasValue N s m x) (hl : parts x = some l)
    (hm : ∀ ps, x ≠ .map ps) (hy : HasValue N s k y) (ky : OrderSpec.IsKey y) (kx : ∀ z ∈ l, OrderSpec.IsKey z) (ho : l.Pairwise fun u v => ¬ KeyLt v u) (n : Nat)
    (hn : 1 ≤ n) : ∃ i, binaryOf N n m k s = .ok i s ∧ i ≤ l.length ∧ ∀ (j : Nat) (h : j < l.length), j < i ↔ KeyLt l[j] y := by
  have hs : searched x = l := by
    cases x <;> simp [parts] at hl <;> subst hl <;> first | rfl | exact absurd rfl (hm _)
  rw [(search_values N hr hx hl hy n).2, hs]
  obtain ⟨i, c, h1, h2, h3, -⟩ := Order.binary_lower_bound l y kx ky ho n hn
  exact ⟨i, by unfold binary; rw [h1]; rfl, h2, h3⟩

/-- In nil there is nothing to find. -/
theorem find_in_nil [Env α] (N : Numbers α) {s : State α} (hr : Reach s) {m k : Nat} {y : Val} (hx : HasValue N s m .nil) (hy : HasValue N s k y) (n : Nat) :
    indexOf N n m k s = .ok (-1) s := by
  obtain ⟨v, v', h1, h2, h3⟩ := hx
  obtain ⟨w, w', g1, g0, -, -⟩ := value_deno hr hy
  cases h3 with
  | @num k' _ _ h => cases k' <;> simp [scalarVal] at h
  | @nums _ _ k' _ _ _ _ h => cases k' <;> simp [arrayVal] at h
  | nil =>
    have hd := standsFor_deno h2 (by simp [V.IsRef])
    unfold indexOf
    rw [bind_eq g1, bind_eq (copy_bump (mem := s.mem) (stk := s.stk) g0)]
    refine with_bump (reach_counted hr) g0 ?_
    have hm : readLoc (.slot m) ⟨bump w s.mem, s.stk ++ [w]⟩ = .ok v ⟨bump w s.mem, s.stk ++ [w]⟩ := by
      have hlt := (List.getElem?_eq_some_iff.1 h1).1
      simp only [readLoc, List.getElem?_append_left hlt, h1]
    have hw : readLoc (.slot s.stk.length) ⟨bump w s.mem, s.stk ++ [w]⟩ = .ok w ⟨bump w s.mem, s.stk ++ [w]⟩ := by simp [readLoc]
    rw [bind_eq hm, bind_eq hw]
    unfold indexV
    rw [bind_eq (defined_nil (s := ⟨bump w s.mem, s.stk ++ [w]⟩) (bump_deno _ hd)), if_pos (by simp)]
    rfl

/-- C171 for a number in place of an array, itself or through a reference: it is searched like an array of one element, so the index is 0 if it is the same as `y`
    and -1 otherwise. -/
theorem find_number [Env α] (N : Numbers α) {s : State α} (hr : Reach s) {m k : Nat} {x y : Val} (hx : HasValue N s m x) (hp : parts x = none) (h0 : x ≠ .nil)
    (hy : HasValue N s k y) (py : Plain y) (n : Nat) :
    (indexOf N (n + 1) m k s = .ok 0 s ∧ Same x y) ∨ (indexOf N (n + 1) m k s = .ok (-1) s ∧ ¬ Same x y) := by
  obtain ⟨v, v', f1, f0, f2, f3⟩ := value_deno hr hx
  obtain ⟨w, w', g1, g0, g2, g3⟩ := value_deno hr hy
  have hc := reach_counted hr
  obtain ⟨kd, c, rfl, hv⟩ : ∃ kd c, v' = .num kd c ∧ scalarVal N kd c = some x := by
    cases f3 with
    | nil => exact absurd rfl h0
    | @num kd c _ h => exact ⟨kd, c, rfl, h⟩
    | @nums _ _ k' _ _ _ _ h => cases k' <;> simp [arrayVal] at h <;> subst h <;> simp [parts] at hp
    | _ => simp [parts] at hp
  have hk : kd ≠ .pair := by rintro rfl; cases hv
  have key : indexOf N (n + 1) m k s = liftO (Libube.indexLoop (n + 1) y 0 [x]) s := by
    unfold indexOf
    rw [bind_eq g1, bind_eq (copy_bump (mem := s.mem) (stk := s.stk) g0)]
    refine with_lift hc g0 ?_
    have hm : readLoc (.slot m) ⟨bump w s.mem, s.stk ++ [w]⟩ = .ok v ⟨bump w s.mem, s.stk ++ [w]⟩ := by
      have : s.stk[m]? = some v := by
        simp only [readLoc] at f1
        cases hs : s.stk[m]? with
        | none => rw [hs] at f1; cases f1
        | some u => rw [hs] at f1; cases f1; rfl
      have hlt := (List.getElem?_eq_some_iff.1 this).1
      simp only [readLoc, List.getElem?_append_left hlt, this]
    have hw : readLoc (.slot s.stk.length) ⟨bump w s.mem, s.stk ++ [w]⟩ = .ok w ⟨bump w s.mem, s.stk ++ [w]⟩ := by simp [readLoc]
    rw [bind_eq hm, bind_eq hw]
    have fd := bump_deno w f2
    obtain ⟨e1, e2, e3⟩ := num_shape (s := ⟨bump w s.mem, s.stk ++ [w]⟩) fd
    unfold indexV
    rw [bind_eq e1, if_neg (by simp), bind_eq e2]
    split
    · exact absurd rfl hk
    rw [bind_eq e3]
    refine findLoop_lift [x] 0 fun j z hz => ?_
    match j with
    | j + 1 => simp at hz
    | 0 =>
      cases hz
      rw [bind_eq (at_num_bump (bump_counted _ hc) (bump_alive _ f0) fd)]
      refine with_lift (mem := bump w s.mem) (v := .num kd c) (bump_counted _ hc) (by simp [Alive, V.ptr]) ?_
      have r : readLoc (.slot (s.stk ++ [w]).length) ⟨bump (.num kd c) (bump w s.mem), (s.stk ++ [w]) ++ [.num kd c]⟩ =
          .ok (.num kd c) ⟨bump (.num kd c) (bump w s.mem), (s.stk ++ [w]) ++ [.num kd c]⟩ := by simp [readLoc]
      rw [bind_eq r]
      exact eqV_lift N _ (bump_counted _ (bump_counted _ hc)) (.self (by simp [V.IsRef])) (.num hv) (bump_alive _ (bump_alive _ g0)) (bump_deno _ (bump_deno _ g2))
        (bump_holds _ (bump_holds _ g3))
  have hi : x.items = [x] ∧ x.defined ∧ (∀ ps, x ≠ .map ps) ∧ Plain x ∧ depth x < n + 1 := by
    cases kd <;> simp [scalarVal] at hv <;> subst hv <;>
      refine ⟨rfl, rfl, by simp, by constructor, by simp [depth]⟩
  have hidx : index (n + 1) x y = Libube.indexLoop (n + 1) y 0 [x] := by
    cases kd <;> simp [scalarVal] at hv <;> subst hv <;> rfl
  rw [key, ← hidx]
  rcases Order.index_array_partial x y hi.2.1 hi.2.2.1 py (n + 1) (by
    rw [hi.1]
    intro z hz
    cases List.mem_singleton.1 hz
    exact hi.2.2.2) with ⟨j, h, h1, h2, h3⟩ | ⟨h1, h2⟩
  · left
    simp only [hi.1] at h h2
    have : j = 0 := by simpa using h
    subst this
    exact ⟨by rw [h1]; rfl, h2⟩
  · exact .inr ⟨by rw [h1]; rfl, h2 x (by rw [hi.1]; simp)⟩

/-- Looking for nil where nil comes first follows a null pointer. -/
theorem find_nil_undefined [Env α] (N : Numbers α) {s : State α} (hr : Reach s) {m k : Nat} {l : List Val} (hx : HasValue N s m (.arr (.nil :: l)))
    (hy : HasValue N s k .nil) (n : Nat) : indexOf N (n + 1) m k s = .ub .nullDeref := by
  rw [(search_values N hr hx (l := .nil :: l) rfl hy _).1]
  have : index (n + 1) (.arr (.nil :: l)) .nil = .ub .nullDeref := by
    simp only [index, Val.items, Val.type, Val.elems, if_true, indexLoop, (Order.nil_eq_nil_undefined n).1]
    rfl
  rw [this]
  rfl

/-! ## Cases -/

/-- `x = "AB"; c = 'B'; z["A"] = 1; u[1] = "A"; k = "A"; w = nil;` -/
def progSearch : List (Stmt Int) :=
  [.decl (.str [65, 66]), .decl (.num .char 66), .decl .nil, .setKey 2 (.str [65]) (.num .int 1), .decl .nil, .setElem 3 1 (.str [65]), .decl (.str [65]), .decl .nil]

theorem progSearch_reach : Reach (final progSearch) := reach_exec progSearch .start (by decide +kernel)

/-- A string in memory. -/
theorem string_holds {mem : List (Option (Obj Int))} {a : Addr} {xs : List Int} (h : (match mem[a]? with
    | some (some o) => decide (o.kind = .char ∧ o.size = xs.length ∧ o.cells.take (xs.length + 1) = xs.map (fun x => .raw (some x)) ++ [.raw (some 0)]) | _ => false) = true) :
    HoldsVal intNumbers mem (.arr a) (.chars (xs.map intNumbers.char)) := by
  obtain ⟨o, ho, hk, hn, hc⟩ := obj_with (fun o => o.kind = .char ∧ o.size = xs.length ∧
    o.cells.take (xs.length + 1) = xs.map (fun x => .raw (some x)) ++ [.raw (some 0)]) _ h
  have get : ∀ i, i < xs.length + 1 → o.cells[i]? = (xs.map (fun x => Cell.raw (some x)) ++ [.raw (some 0)])[i]? := by
    intro i hi
    rw [← hc, List.getElem?_take, if_pos hi]
  refine .str (z := 0) ho ⟨hk, hn, fun i x hi => ?_⟩ ?_ (by decide)
  · have hl := (List.getElem?_eq_some_iff.1 hi).1
    rw [get i (by omega), List.getElem?_append_left (by simpa using hl), List.getElem?_map, hi]
    rfl
  · rw [get _ (by omega), List.getElem?_append_right (by simp)]
    simp

theorem progSearch_string : HasValue intNumbers (final progSearch) 0 (.chars [65, 66]) ∧ HasValue intNumbers (final progSearch) 1 (.char 66) ∧
    HasValue intNumbers (final progSearch) 4 (.chars [65]) ∧ HasValue intNumbers (final progSearch) 5 .nil :=
  ⟨⟨.arr 0, .arr 0, by decide +kernel, .inl ⟨rfl, by simp⟩, string_holds (xs := [65, 66]) (by decide +kernel)⟩,
    ⟨.num .char 66, .num .char 66, by decide +kernel, .inl ⟨rfl, by simp⟩, .num rfl⟩,
    ⟨.arr 5, .arr 5, by decide +kernel, .inl ⟨rfl, by simp⟩, string_holds (xs := [65]) (by decide +kernel)⟩,
    ⟨.nil, .nil, by decide +kernel, .inl ⟨rfl, by simp⟩, .nil⟩⟩

theorem progSearch_map : HasValue intNumbers (final progSearch) 2 (.map [(.chars [65], .int 1)]) := by
  refine ⟨.arr 2, .arr 2, by decide +kernel, .inl ⟨rfl, by simp⟩, ?_⟩
  obtain ⟨o, ho, hk, hn, hc⟩ := obj_with (fun o => o.kind = .pair ∧ o.size = 1 ∧ o.cells[0]? = some (.pair (.arr 1) (.num .int 1)))
    (final progSearch).mem[2]? (by decide +kernel)
  refine .map (u := fun _ => .arr 1) (v := fun _ => .num .int 1) ho hk hn (fun i hi => ?_) (fun i y hy => ?_) fun i y hy => ?_
  · match i with
    | 0 => exact hc
    | i + 1 => simp at hi
  · match i with
    | 0 => cases hy; exact string_holds (xs := [65]) (by decide +kernel)
    | i + 1 => simp at hy
  · match i with
    | 0 => cases hy; exact .num rfl
    | i + 1 => simp at hy

theorem progSearch_list : HasValue intNumbers (final progSearch) 3 (.arr [.nil, .chars [65]]) := by
  refine ⟨.arr 4, .arr 4, by decide +kernel, .inl ⟨rfl, by simp⟩, ?_⟩
  obtain ⟨o, ho, hk, hn, h0, h1⟩ := obj_with (fun o => o.kind = .var ∧ o.size = 2 ∧ o.cells[0]? = some (.var .nil) ∧ o.cells[1]? = some (.var (.arr 3)))
    (final progSearch).mem[4]? (by decide +kernel)
  refine .list (v := fun i => if i = 0 then .nil else .arr 3) ho hk hn (fun i hi => ?_) fun i y hy => ?_
  · match i with
    | 0 => exact h0
    | 1 => exact h1
    | i + 2 => simp at hi
  · match i with
    | 0 => cases hy; exact .nil
    | 1 => cases hy; exact string_holds (xs := [65]) (by decide +kernel)
    | i + 2 => simp at hy

/-- The hypotheses of `find_partial` and `binary_counts` are met: `"AB"` and `'B'`. -/
example : ∃ x y l, Reach (final progSearch) ∧ HasValue intNumbers (final progSearch) 0 x ∧ parts x = some l ∧ (∀ ps, x ≠ .map ps) ∧
    HasValue intNumbers (final progSearch) 1 y ∧ Plain y ∧ (∀ z ∈ l, Plain z ∧ depth z < 3) ∧ OrderSpec.IsKey y ∧ (∀ z ∈ l, OrderSpec.IsKey z) ∧
    (l.Pairwise fun u v => ¬ KeyLt v u) ∧ ∃ z ∈ l, Same z y := by
  refine ⟨_, _, [.char 65, .char 66], progSearch_reach, progSearch_string.1, rfl, by simp, progSearch_string.2.1, .char _, ?_, trivial, ?_, ?_, .char 66, by simp, .char _⟩
  · intro z hz
    simp at hz
    rcases hz with rfl | rfl
    · exact ⟨.char _, by simp [depth]⟩
    · exact ⟨.char _, by simp [depth]⟩
  · intro z hz
    simp at hz
    rcases hz with rfl | rfl <;> trivial
  · refine .cons ?_ (.cons (by simp) .nil)
    intro v hv
    simp at hv
    subst hv
    show ¬ ((66 : UInt8).toInt8.toInt < (65 : UInt8).toInt8.toInt)
    decide

/-- Those of `find_key`: `z` and `"A"`. -/
example : ∃ ps y, HasValue intNumbers (final progSearch) 2 (.map ps) ∧ HasValue intNumbers (final progSearch) 4 y ∧ OrderSpec.IsKey y ∧ (∀ p ∈ ps, OrderSpec.IsKey p.1) ∧
    (ps.Pairwise fun p q => KeyLt p.1 q.1) ∧ ∃ p ∈ ps, SameKey p.1 y :=
  ⟨_, _, progSearch_map, progSearch_string.2.2.1, by simp [OrderSpec.IsKey], by simp [OrderSpec.IsKey], by simp, _, List.mem_singleton.2 rfl, rfl⟩

/-- Those of `find_nil_undefined` and `find_in_nil`. -/
example : ∃ l y, HasValue intNumbers (final progSearch) 3 (.arr (.nil :: l)) ∧ HasValue intNumbers (final progSearch) 5 .nil ∧ HasValue intNumbers (final progSearch) 4 y :=
  ⟨_, _, progSearch_list, progSearch_string.2.2.2, progSearch_string.2.2.1⟩

/-- Those of `find_number`: `'B'` and `'B'`, and `'B'` and `"A"`. -/
example : parts (.char 66) = none ∧ HasValue intNumbers (final progSearch) 1 (.char 66) ∧ Plain (.char 66) ∧ Same (.char 66) (.char 66) ∧
    HasValue intNumbers (final progSearch) 4 (.chars [65]) ∧ ¬ Same (.char 66) (.chars [65]) :=
  ⟨rfl, progSearch_string.2.1, .char _, .char _, progSearch_string.2.2.1, nofun⟩

/-- C171 in full: a place is found if and only if there is one. -/
def FindsAll : Prop := ∀ (s : State Int) (m k : Nat) (x y : Val) (l : List Val), Reach s → HasValue intNumbers s m x → parts x = some l → HasValue intNumbers s k y →
  ∃ n i, indexOf intNumbers n m k s = .ok i s ∧ (i = -1 ↔ ∀ z ∈ l, ¬ Same z y)

/-- It is not so: looking for nil. -/
theorem find_undecided : ¬ FindsAll := by
  intro h
  obtain ⟨n, i, h1, -⟩ := h (final progSearch) 3 5 _ _ [.nil, .chars [65]] progSearch_reach progSearch_list rfl progSearch_string.2.2.2
  cases n with
  | zero =>
    rw [(search_values intNumbers progSearch_reach progSearch_list (l := [.nil, .chars [65]]) rfl progSearch_string.2.2.2 0).1] at h1
    cases h1
  | succ n =>
    rw [find_nil_undefined intNumbers progSearch_reach progSearch_list progSearch_string.2.2.2 n] at h1
    cases h1

#print axioms search_values
#print axioms find_partial
#print axioms find_key
#print axioms binary_counts
#print axioms find_in_nil
#print axioms find_number
#print axioms find_nil_undefined
#print axioms find_undecided

end Libube.MemProps

import Verif.Model.ViewElem
import Verif.Props.ViewOps
import Verif.Props.Order

/-! # C137, C138: elements of views, searching and sorting views -/

namespace Libube.ViewElem

open View ViewSpec

/-- The type of the elements, numbered as in `enum` of lube/var.h; of a number its own type; of nil an exception. -/
inductive AType : Val → Outcome Nat → Prop
  | nil (e) : AType .nil (.thrown e)
  | char (c) : AType (.char c) (.ok 1)
  | int (i) : AType (.int i) (.ok 2)
  | long (l) : AType (.long l) (.ok 3)
  | float (f) : AType (.float f) (.ok 4)
  | double (d) : AType (.double d) (.ok 5)
  | cfloat (r i) : AType (.cfloat r i) (.ok 6)
  | chars (s) : AType (.chars s) (.ok 1)
  | ints (s) : AType (.ints s) (.ok 2)
  | longs (s) : AType (.longs s) (.ok 3)
  | floats (s) : AType (.floats s) (.ok 4)
  | doubles (s) : AType (.doubles s) (.ok 5)
  | cfloats (s) : AType (.cfloats s) (.ok 6)
  | cdoubles (s) : AType (.cdoubles s) (.ok 7)
  | arr (s) : AType (.arr s) (.ok 8)
  | map (s) : AType (.map s) (.ok 9)

/-- What `atype` of a var is, which `Like` and `view_of_vars` refer to. -/
theorem atype_of (x : Val) : AType x (atypeOf x) := by cases x <;> constructor

example : AType (.map []) (.ok 9) ∧ ¬ AType (.chars [97]) (.ok 0) := ⟨.map _, nofun⟩

/-- What can be asked of a reference is answered as for the var `x`. -/
structure Like (e : Elem) (x : Val) : Prop where
  defined : defined e = .ok x.defined
  size : size e = .ok x.size
  type : type e = .ok x.type
  atype : atype e = atypeOf x
  value : value e = .ok x
  eq : ∀ n w, eq n e w = Libube.eq (n + 1) x w
  lt : ∀ n w, ltElem n w e = Libube.lt (n + 1) w x

theorem locate_eq {a : Arr α} {o i : Int} (ho : offset a = .ok o) (h0 : -2 ^ 31 ≤ i + o) (h1 : i + o < 2 ^ 31) : locate a i = .ok (i + o) := by
  unfold locate; rw [ho, Outcome.bind_ok, cint_ok ⟨h0, h1⟩]

theorem load_some {data : List α} {i : Int} {x : α} (h0 : 0 ≤ i) (h : data[i.toNat]? = some x) : load data i = .ok x := by
  unfold load; rw [if_neg (by omega), h]

/-- A scalar of type `k`. -/
theorem kind_of_type {x : Val} {k : Kind} (h : x.type = code k) : scalarKind x.type = some k ∧ x.type ≠ 0 ∧ x.defined = true ∧ x.size = 1 ∧ atypeOf x = .ok (code k) ∧
    k ≠ .var ∧ k ≠ .pair := by
  cases x <;> cases k <;> simp [Val.type, code, scalarKind, Val.defined, Val.size, atypeOf, heapKind] at h ⊢

theorem heapDeref_num {k : Kind} (h1 : k ≠ .var) (h2 : k ≠ .pair) (data : List Val) (i : Int) : heapDeref k data i = .ok none := by
  unfold heapDeref
  split
  · exact absurd rfl h1
  · exact absurd rfl h2
  · rfl

theorem deref_num {e : Elem} (h1 : e.kind ≠ .var) (h2 : e.kind ≠ .pair) : deref e = .ok none := by
  unfold deref
  split
  · exact heapDeref_num h1 h2 _ _
  · rfl

theorem value_num {e : Elem} (h1 : e.kind ≠ .var) (h2 : e.kind ≠ .pair) : value e = (do
    let p ← locate e.arr e.index
    load e.arr.data p) := by
  unfold value
  cases hl : locate e.arr e.index <;> try rfl
  simp only [Outcome.bind_ok]
  cases hx : load e.arr.data _ <;> try rfl
  simp only [Outcome.bind_ok]
  split
  · exact absurd (by assumption) h1
  · exact absurd (by assumption) h2
  · rfl

/-- A reference to a number in a view is the reference to the number in the array, whatever is asked and wherever it lies. -/
theorem number_same {v : Arr Val} {o : Int} (ho : offset v = .ok o) (k : Kind) (h1 : k ≠ .var) (h2 : k ≠ .pair) (i : Int) :
    let e : Elem := ⟨k, v, i⟩
    let e' : Elem := ⟨k, ⟨v.data, none⟩, i + o⟩
    defined e = defined e' ∧ size e = size e' ∧ type e = type e' ∧ atype e = atype e' ∧ heap e = heap e' ∧ (∀ j, get j e = get j e') ∧
      (∀ n w, eq n e w = eq n e' w) ∧ (∀ n w, ltElem n w e = ltElem n w e') ∧ (∀ f j, subscript f e j = subscript f e' j) ∧
      value e = value e' ∧ ∀ j, at' e j = at' e' j := by
  intro e e'
  have hd : deref e = deref e' := by rw [deref_num (e := e) h1 h2, deref_num (e := e') h1 h2]
  have hl : locate v i = locate (⟨v.data, none⟩ : Arr Val) (i + o) := by
    unfold locate; rw [ho]; simp only [offset, Outcome.bind_ok]
    rw [Int.add_zero]
  have hb : baseDeref e = baseDeref e' := by
    show (locate v i >>= fun p => heapDeref k v.data p) = (locate (⟨v.data, none⟩ : Arr Val) (i + o) >>= fun p => heapDeref k v.data p)
    rw [hl]
  have e1 : defined e = defined e' := by unfold defined; rw [hd]
  have e2 : size e = size e' := by unfold size; rw [hb]
  have e3 : type e = type e' := by unfold type; rw [hb]
  have e4 : heap e = heap e' := by unfold heap; rw [hd]
  have e5 : ∀ j, get j e = get j e' := by
    intro j; unfold get; rw [hd]
    show (_ >>= fun x : Option Val => _) = (_ >>= fun x : Option Val => _)
    simp only [show locate e.arr e.index = locate e'.arr e'.index from hl]
    rfl
  have e6 : ∀ n w, neq n e w = neq n e' w := by
    intro n w; unfold neq; rw [e2, e3, e4]; simp only [e5]
  have e7 : value e = value e' := by
    rw [value_num (e := e) h1 h2, value_num (e := e') h1 h2]
    rw [show locate e.arr e.index = locate e'.arr e'.index from hl]
  refine ⟨e1, e2, e3, ?_, e4, e5, ?_, ?_, ?_, e7, ?_⟩
  · unfold atype; rw [e1, hb]
  · intro n w; unfold eq; rw [e6]
  · intro n w; unfold ltElem; rw [e3, e4]; simp only [e5]
  · intro f j; unfold subscript; rw [hd]
  · intro j; unfold at'; rw [e7]

example : offset (⟨[.int 1, .int 2, .int 3], some [1, 2, 1]⟩ : Arr Val) = .ok 1 ∧ Kind.int ≠ .var ∧ Kind.int ≠ .pair :=
  ⟨rfl, by decide, by decide⟩

/-- A reference to a number answers as the number. -/
theorem number_like {v : Arr Val} {o : Int} (ho : offset v = .ok o) {k : Kind} {i : Int} (h0 : 0 ≤ i + o) (h1 : i + o < 2 ^ 31) {x : Val}
    (hx : v.data[(i + o).toNat]? = some x) (hk : x.type = code k) :
    Like ⟨k, v, i⟩ x ∧ (∀ j, get j ⟨k, v, i⟩ = if j = k then .ok x else .ub .typePun) ∧
      (∀ j, at' ⟨k, v, i⟩ j = if j = 0 then .ok x else .thrown (.error "var::at(): Index out of bounds")) ∧
      ∀ f j, subscript f ⟨k, v, i⟩ j = .thrown (.error (if j < 0 then "operator [int]: Negative index" else "Heap::derefInt: Not a reference")) := by
  obtain ⟨c1, c2, c3, c4, c5, c6, c7⟩ := kind_of_type hk
  have hd : deref ⟨k, v, i⟩ = .ok none := deref_num c6 c7
  have hl : locate v i = .ok (i + o) := locate_eq ho (by omega) h1
  have hb : baseDeref ⟨k, v, i⟩ = .ok none := by
    show (locate v i >>= fun p => heapDeref k v.data p) = _
    rw [hl, Outcome.bind_ok, heapDeref_num c6 c7]
  have hld : load v.data (i + o) = .ok x := load_some h0 hx
  have hdef : defined ⟨k, v, i⟩ = .ok true := by unfold defined; rw [hd]; rfl
  have hsize : size ⟨k, v, i⟩ = .ok 1 := by unfold size; rw [hb]; rfl
  have htype : type ⟨k, v, i⟩ = .ok (code k) := by unfold type; rw [hb]; rfl
  have hget : ∀ j, get j ⟨k, v, i⟩ = if j = k then .ok x else .ub .typePun := by
    intro j; unfold get; rw [hd]; simp only [Outcome.bind_ok, hl, hld]
  have hval : value ⟨k, v, i⟩ = .ok x := by
    rw [value_num c6 c7]; simp only [hl, Outcome.bind_ok, hld]
  refine ⟨⟨?_, ?_, ?_, ?_, hval, ?_, ?_⟩, hget, ?_, ?_⟩
  · rw [c3]; exact hdef
  · rw [c4]; exact hsize
  · rw [hk]; exact htype
  · rw [c5]; unfold atype; rw [hdef, hb]; rfl
  · intro n w
    unfold eq Libube.eq
    congr 1
    unfold neq
    rw [htype, Outcome.bind_ok, hsize]
    simp only [Outcome.bind_ok]
    rw [← hk, c1]
    simp only [hget, if_true, Outcome.bind_ok]
    by_cases ht : x.type = w.type
    · rw [if_neg (by simpa using ht)]
      by_cases hs : 1 = w.size
      · rw [if_neg (by simpa using hs), if_neg c2]
      · rw [if_pos hs]
        unfold Libube.neq
        rw [if_neg (by simpa using ht), c4, if_pos hs]
    · rw [if_pos ht]
      unfold Libube.neq
      rw [if_pos ht]
  · intro n w
    unfold ltElem
    rw [htype, Outcome.bind_ok, ← hk, c1]
    simp only [hget, if_true, Outcome.bind_ok]
    by_cases ht : w.type = x.type
    · rw [if_neg (by simpa using ht), if_neg c2]
    · rw [if_pos ht]
      unfold Libube.lt
      rw [if_pos ht]
  · intro j
    unfold at'
    rw [hval, Outcome.bind_ok, c3, if_neg (by simp), if_neg c2]
  · intro f j
    unfold subscript
    rw [hd]
    split <;> rfl

/-- The elements of an array of vars answer as the vars. -/
theorem plain_like {data : List Val} {i : Nat} {x : Val} (h1 : (i : Int) < 2 ^ 31) (hx : data[i]? = some x) : Like ⟨.var, ⟨data, none⟩, i⟩ x := by
  have hl : load data (i : Int) = .ok x := load_some (by omega) (by simpa using hx)
  have hd : deref ⟨.var, ⟨data, none⟩, i⟩ = .ok (some x) := by
    unfold deref heapDeref; simp only [hl]; rfl
  have hloc : locate (⟨data, none⟩ : Arr Val) i = .ok (i : Int) := by
    have := locate_eq (a := (⟨data, none⟩ : Arr Val)) (o := 0) (i := i) rfl (by omega) (by omega)
    rw [Int.add_zero] at this
    exact this
  have hb : baseDeref ⟨.var, ⟨data, none⟩, i⟩ = .ok (some x) := by
    show (locate (⟨data, none⟩ : Arr Val) i >>= fun p => heapDeref .var data p) = _
    rw [hloc]; unfold heapDeref; simp only [Outcome.bind_ok, hl]
  have hdef : defined ⟨.var, ⟨data, none⟩, i⟩ = .ok x.defined := by unfold defined; rw [hd]; rfl
  have hsize : size ⟨.var, ⟨data, none⟩, i⟩ = .ok x.size := by unfold size; rw [hb]; rfl
  have htype : type ⟨.var, ⟨data, none⟩, i⟩ = .ok x.type := by unfold type; rw [hb]; rfl
  have hheap : heap ⟨.var, ⟨data, none⟩, i⟩ = .ok (if x.hasHeap then some x else none) := by unfold heap; rw [hd]; rfl
  have hget : ∀ j, get j ⟨.var, ⟨data, none⟩, i⟩ = if x.type = code j then .ok x else .ub .typePun := by
    intro j; unfold get; rw [hd]; rfl
  have hsc : x.type ≠ 0 → ∃ k, scalarKind x.type = some k ∧ x.type = code k := by
    cases x <;> intro h <;> first | exact absurd rfl h | exact ⟨_, rfl, rfl⟩
  refine ⟨hdef, hsize, htype, ?_, ?_, ?_, ?_⟩
  · unfold atype; rw [hdef, Outcome.bind_ok, hb]
    cases hx : x.defined
    · unfold atypeOf; rw [hx]; rfl
    · rfl
  · unfold value
    show (locate (⟨data, none⟩ : Arr Val) i >>= fun p => load data p >>= fun x => _) = _
    rw [hloc, Outcome.bind_ok, hl, Outcome.bind_ok]
  · intro n w
    unfold eq Libube.eq
    suffices hn : neq n ⟨.var, ⟨data, none⟩, i⟩ w = Libube.neq (n + 1) x w by rw [hn]
    unfold neq
    rw [htype, Outcome.bind_ok, hsize]
    simp only [Outcome.bind_ok]
    by_cases ht : x.type = w.type
    · rw [if_neg (by simpa using ht)]
      by_cases hs : x.size = w.size
      · rw [if_neg (by simpa using hs)]
        by_cases h0 : x.type = 0
        · rw [if_pos h0, hheap, Outcome.bind_ok]
          unfold Libube.neq
          rw [if_neg (show ¬ x.type ≠ w.type by simpa using ht), if_neg (show ¬ x.size ≠ w.size by simpa using hs)]
          cases x <;> first | (exfalso; simp [Val.type] at h0; done) | rfl
        · rw [if_neg h0]
          obtain ⟨k, k1, k2⟩ := hsc h0
          rw [k1]
          simp only [hget]
          rw [if_pos k2, Outcome.bind_ok]
      · rw [if_pos hs]
        unfold Libube.neq
        rw [if_neg (by simpa using ht), if_pos hs]
    · rw [if_pos ht]
      unfold Libube.neq
      rw [if_pos ht]
  · intro n w
    unfold ltElem
    rw [htype, Outcome.bind_ok]
    by_cases ht : w.type = x.type
    · rw [if_neg (by simpa using ht)]
      by_cases h0 : x.type = 0
      · rw [if_pos h0, hheap, Outcome.bind_ok]
        cases hw : w.hasHeap
        · rw [if_pos (by simp)]
          unfold Libube.lt
          rw [if_neg (by simpa using ht)]
          rw [h0] at ht
          cases w <;> first | (exfalso; simp [Val.type] at ht; done) | (exfalso; simp [Val.hasHeap] at hw; done) | rfl
        · rw [if_neg (by simp)]
          cases hh : x.hasHeap
          · unfold Libube.lt
            rw [if_neg (by simpa using ht)]
            cases x <;> first | (exfalso; simp [Val.type] at h0; done) | (exfalso; simp [Val.hasHeap] at hh; done) | skip
            cases w <;> first | (exfalso; simp [Val.type] at ht; done) | rfl
          · rfl
      · rw [if_neg h0]
        obtain ⟨k, k1, k2⟩ := hsc h0
        rw [k1]
        simp only [hget]
        rw [if_pos k2, Outcome.bind_ok]
    · rw [if_pos ht]
      unfold Libube.lt
      rw [if_pos ht]

example : (2 : Int) < 2 ^ 31 ∧ [Val.int 1, .nil, .chars [97]][2]? = some (Val.chars [97]) := ⟨by decide, rfl⟩

/-- C137: whatever is asked of an element of a view of numbers, the answer is that for the number of the array the index stands for. -/
theorem view_of_numbers_partial {a v : Arr Val} {sh : List Int} {off o : Int} (h : view a sh off = .ok v) (ho : offset v = .ok o) (h0 : 0 ≤ o)
    (hl : (a.data.length : Int) < 2 ^ 31) {k : Kind} (hk : ∀ x ∈ a.data, x.type = code k) (i : Int) (is : List Int) (hi : InRange sh (i :: is)) :
    ∃ x, a.data[(o + pos sh (i :: is)).toNat]? = some x ∧ ∃ p, View.index v i is = .ok p ∧ Like ⟨k, v, p⟩ x ∧
      (∀ j, get j ⟨k, v, p⟩ = if j = k then .ok x else .ub .typePun) ∧
      (∀ j, at' ⟨k, v, p⟩ j = if j = 0 then .ok x else .thrown (.error "var::at(): Index out of bounds")) := by
  obtain ⟨b, -, h2, h3, h4, h5⟩ := view_shape h
  have hb : b + off = o := by have := h3.offset; rw [ho] at this; injection this with this; exact this.symm
  rw [hb] at h3 h4 h5
  have hr := InRange.pos_range hi
  have hlt : (o + pos sh (i :: is)).toNat < a.data.length := by omega
  have hx : a.data[(o + pos sh (i :: is)).toNat]? = some a.data[(o + pos sh (i :: is)).toNat] := List.getElem?_eq_getElem hlt
  have hp : View.index v i is = .ok (pos sh (i :: is)) := by
    have := h3.index_ok i is [] hi
    rwa [List.append_nil] at this
  obtain ⟨r1, r2, r3, -⟩ := number_like (k := k) ho (i := pos sh (i :: is)) (by omega) (by omega)
    (by rw [h2, Int.add_comm]; exact hx) (hk _ (List.getElem_mem hlt))
  exact ⟨_, hx, _, hp, r1, r2, r3⟩

example : view (⟨[.int 1, .int 2, .int 3], none⟩ : Arr Val) [2, 1] 1 = .ok ⟨[.int 1, .int 2, .int 3], some [1, 2, 1, 1, 1]⟩ ∧ InRange [2, 1] [1, 0] ∧
    ∀ x ∈ [Val.int 1, .int 2, .int 3], x.type = code .int := by
  refine ⟨view_make (b := 0) rfl (by decide) (by decide) (by decide) (by decide) (by decide) (by decide), by decide, ?_⟩
  intro x hx
  simp only [List.mem_cons, List.not_mem_nil, or_false] at hx
  rcases hx with rfl | rfl | rfl <;> rfl

/-- How a comparison of an element of a view of vars with something of the same type ends. -/
def clash (t : Nat) : UB := if t = 0 then .nullDeref else .typePun

/-- C137: of an element of a view of vars only type, size and type of the elements are those of the var.  It is said to be defined though it
    be nil, it has no heap, none of its values can be taken, `[]` throws, and comparing it with anything of the same type and size is
    undefined. -/
theorem view_of_vars {v : Arr Val} {ip : List Int} (hv : v.ip = some ip) {o : Int} (ho : offset v = .ok o) {i : Int} (h0 : 0 ≤ i + o) (h1 : i + o < 2 ^ 31) {x : Val}
    (hx : v.data[(i + o).toNat]? = some x) :
    type ⟨.var, v, i⟩ = .ok x.type ∧ size ⟨.var, v, i⟩ = .ok x.size ∧ atype ⟨.var, v, i⟩ = atypeOf x ∧
    defined ⟨.var, v, i⟩ = .ok true ∧ heap ⟨.var, v, i⟩ = .ok none ∧ (∀ k, k ≠ .var → get k ⟨.var, v, i⟩ = .ub .typePun) ∧
    (∀ f j, 0 ≤ j → subscript f ⟨.var, v, i⟩ j = .thrown (.error "Heap::derefInt: Not a reference")) ∧
    (∀ n w, eq n ⟨.var, v, i⟩ w = if x.type = w.type ∧ x.size = w.size then .ub (clash x.type) else .ok false) ∧
    (∀ n w, ltElem n w ⟨.var, v, i⟩ = if w.type = x.type then .ub (clash x.type) else .ok (decide (w.type < x.type))) := by
  have hd : deref ⟨.var, v, i⟩ = .ok none := by unfold deref; simp only [hv]
  have hloc : locate v i = .ok (i + o) := locate_eq ho (by omega) h1
  have hl : load v.data (i + o) = .ok x := load_some h0 hx
  have hb : baseDeref ⟨.var, v, i⟩ = .ok (some x) := by
    show (locate v i >>= fun p => heapDeref .var v.data p) = _
    rw [hloc]; unfold heapDeref; simp only [Outcome.bind_ok, hl]
  have hdef : defined ⟨.var, v, i⟩ = .ok true := by unfold defined; rw [hd]; rfl
  have hsize : size ⟨.var, v, i⟩ = .ok x.size := by unfold size; rw [hb]; rfl
  have htype : type ⟨.var, v, i⟩ = .ok x.type := by unfold type; rw [hb]; rfl
  have hheap : heap ⟨.var, v, i⟩ = .ok none := by unfold heap; rw [hd]; rfl
  have hget : ∀ k, k ≠ .var → get k ⟨.var, v, i⟩ = .ub .typePun := by
    intro k hk; unfold get; rw [hd]; simp only [Outcome.bind_ok]; rw [if_neg hk]
  have hsc : x.type ≠ 0 → ∃ k, scalarKind x.type = some k ∧ k ≠ .var := by
    cases x <;> intro h <;> first | exact absurd rfl h | exact ⟨_, rfl, by decide⟩
  refine ⟨htype, hsize, ?_, hdef, hheap, hget, ?_, ?_, ?_⟩
  · unfold atype; rw [hdef, Outcome.bind_ok, hb]; rfl
  · intro f j hj; unfold subscript; rw [if_neg (by omega), hd]; rfl
  · intro n w
    unfold eq neq
    rw [htype, Outcome.bind_ok, hsize]
    simp only [Outcome.bind_ok]
    by_cases ht : x.type = w.type
    · rw [if_neg (by simpa using ht)]
      by_cases hs : x.size = w.size
      · rw [if_neg (by simpa using hs), if_pos (show x.type = w.type ∧ x.size = w.size from ⟨ht, hs⟩), clash]
        by_cases h0 : x.type = 0
        · simp only [if_pos h0, hheap]; rfl
        · simp only [if_neg h0]
          obtain ⟨k, k1, k2⟩ := hsc h0
          rw [k1]
          simp only [hget k k2]; rfl
      · rw [if_pos hs, if_neg (fun h => hs h.2)]; rfl
    · rw [if_pos ht, if_neg (fun h => ht h.1)]; rfl
  · intro n w
    unfold ltElem
    rw [htype, Outcome.bind_ok]
    by_cases ht : w.type = x.type
    · rw [if_neg (by simpa using ht), if_pos ht, clash]
      by_cases h0 : x.type = 0
      · rw [if_pos h0, if_pos h0, hheap]
        cases w.hasHeap <;> rfl
      · rw [if_neg h0, if_neg h0]
        obtain ⟨k, k1, k2⟩ := hsc h0
        rw [k1]
        simp only [hget k k2]; rfl
    · rw [if_pos ht, if_neg ht]

example : offset (⟨[.nil, .int 1, .chars [97]], some [1, 2, 1]⟩ : Arr Val) = .ok 1 ∧
    (⟨[.nil, .int 1, .chars [97]], some [1, 2, 1]⟩ : Arr Val).data[((1 : Int) + 1).toNat]? = some (.chars [97]) := ⟨rfl, rfl⟩

/-- C137: a copy of an element of a view of vars is the var, unless the view has one dimension and the var is an array of vars of the size of
    the view. -/
theorem view_of_vars_value {v : Arr Val} {ip : List Int} (hv : v.ip = some ip) {o : Int} (ho : offset v = .ok o) {sh : List Int} (hs : HasShape v o sh) {i : Int}
    (h0 : 0 ≤ i + o) (h1 : i + o < 2 ^ 31) {x : Val} (hx : v.data[(i + o).toNat]? = some x) :
    ((∀ xs, x = .arr xs → sh ≠ [(xs.length : Int)]) → value ⟨.var, v, i⟩ = .ok x) ∧
    (∀ xs, x = .arr xs → sh = [(xs.length : Int)] →
      value ⟨.var, v, i⟩ = if xs.length = 1 then .diverge else .thrown (.error "Set::vector: Unknown type")) := by
  have hloc : locate v i = .ok (i + o) := locate_eq ho (by omega) h1
  have hl : load v.data (i + o) = .ok x := load_some h0 hx
  have hval : value ⟨.var, v, i⟩ = (copyable .var v x >>= fun c =>
      if c then (if x.size = 1 then .diverge else .thrown (.error "Set::vector: Unknown type")) else .ok x) := by
    unfold value
    show (locate v i >>= fun p => load v.data p >>= fun x => _) = _
    rw [hloc, Outcome.bind_ok, hl, Outcome.bind_ok]
    simp only [hv]
  have hcop : ∀ xs, x = .arr xs → copyable .var v x = .ok (decide (sh = [(xs.length : Int)])) := by
    rintro xs rfl
    unfold copyable
    simp only [heapKind]
    rw [if_neg (by decide), hs.dim, hs.size]
    have hn := hs.fits.2
    cases sh with
    | nil => exact absurd rfl hn
    | cons d ds =>
      cases ds with
      | nil =>
        rw [if_neg (by simp)]
        simp only [Outcome.bind_ok, Val.size, Val.type, Val.elems]
        simp
      | cons => rw [if_pos (by simp)]; simp
  constructor
  · intro hne
    rw [hval]
    cases x
    case arr xs => rw [hcop xs rfl, Outcome.bind_ok, if_neg (by simpa using hne xs rfl)]
    all_goals rfl
  · rintro xs rfl hsh
    rw [hval, hcop xs rfl, Outcome.bind_ok, if_pos (by simpa using hsh)]
    rfl

example : HasShape (⟨[.arr [.int 1, .int 2], .int 1], some [0, 2, 1]⟩ : Arr Val) 0 [2] :=
  .view 0 [2] rfl (by decide) (by decide)

/-! ## Searching and sorting -/

theorem indexLoop_like (n : Nat) (k : Kind) (a : Arr Val) (w : Val) (xs : List Val) (i : Nat)
    (h : ∀ (j : Nat) (hj : j < xs.length), Like ⟨k, a, ((i + j : Nat) : Int)⟩ xs[j]) :
    indexLoop n k a w i xs.length = Libube.indexLoop (n + 1) w i xs := by
  induction xs generalizing i with
  | nil => rfl
  | cons x xs ih =>
    have hx : Like ⟨k, a, (i : Int)⟩ x := by have := h 0 (by simp); simpa using this
    rw [List.length_cons, indexLoop, Libube.indexLoop, hx.eq]
    cases Libube.eq (n + 1) x w <;> try rfl
    rename_i b
    cases b
    · simp only [Outcome.bind_ok, Bool.false_eq_true, if_false]
      apply ih
      intro j hj
      have := h (j + 1) (by simpa using hj)
      rw [show i + (j + 1) = i + 1 + j by omega] at this
      simpa using this
    · rfl

theorem binary_like (n : Nat) (r : List Val) {e : Elem} {x : Val} (h : Like e x) : binary n r e = Libube.binary (n + 1) r x := by
  unfold binary Libube.binary binaryCount
  by_cases h0 : r.length = 0
  · rw [if_pos h0, if_pos h0]; rfl
  · rw [if_neg h0, if_neg h0]
    have hf : (fun pos : Nat => match r[pos]? with | some y => ltElem n y e | none => Outcome.ub UB.outOfBounds) =
        (fun pos : Nat => match r[pos]? with | some y => Libube.lt (n + 1) y x | none => Outcome.ub UB.outOfBounds) := by
      funext pos
      cases r[pos]? with
      | none => rfl
      | some y => exact h.lt n y
    exact congrArg (fun f : Nat → Outcome Bool => binaryLoop f 0 r.length >>= fun z => Outcome.ok z.1) hf

theorem sortLoop_like (n : Nat) (k : Kind) (a : Arr Val) (xs r : List Val) (i : Nat)
    (h : ∀ (j : Nat) (hj : j < xs.length), Like ⟨k, a, ((i + j : Nat) : Int)⟩ xs[j]) :
    sortLoop n k a r i xs.length = Libube.sortLoop (n + 1) r xs := by
  induction xs generalizing i r with
  | nil => rfl
  | cons x xs ih =>
    have hx : Like ⟨k, a, (i : Int)⟩ x := by have := h 0 (by simp); simpa using this
    rw [List.length_cons, sortLoop, Libube.sortLoop, binary_like n r hx, hx.value]
    simp only [Outcome.bind_ok]
    cases Libube.binary (n + 1) r x <;> try rfl
    simp only [Outcome.bind_ok]
    cases insertVar r x _ <;> try rfl
    simp only [Outcome.bind_ok]
    apply ih
    intro j hj
    have := h (j + 1) (by simpa using hj)
    rw [show i + (j + 1) = i + 1 + j by omega] at this
    simpa using this

/-- The elements a view with offset `o` and shape `sh` shows. -/
def shown (data : List Val) (o : Int) (sh : List Int) : List Val := (data.drop o.toNat).take sh.prod.toNat

theorem shown_get {data : List Val} {o : Int} {sh : List Int} (h0 : 0 ≤ o) (hp : 0 ≤ sh.prod) (hl : sh.prod + o ≤ data.length) :
    (shown data o sh).length = sh.prod.toNat ∧ ∀ (j : Nat) (hj : j < (shown data o sh).length), data[((j : Int) + o).toNat]? = some (shown data o sh)[j] := by
  have hlen : (shown data o sh).length = sh.prod.toNat := by
    unfold shown; rw [List.length_take, List.length_drop]; omega
  refine ⟨hlen, fun j hj => ?_⟩
  rw [← List.getElem?_eq_getElem hj]
  unfold shown
  rw [List.getElem?_take, if_pos (by omega), List.getElem?_drop]
  congr 1; omega

theorem elems_type {d : Val} {k : Kind} (hk : heapKind d = some k) (h1 : k ≠ .var) (h2 : k ≠ .pair) (h3 : k ≠ .cdouble) : ∀ x ∈ d.elems, x.type = code k := by
  intro x hx
  cases d <;> simp [heapKind] at hk <;> subst hk <;> simp [Val.elems] at hx <;>
    first | exact absurd rfl h1 | exact absurd rfl h2 | exact absurd rfl h3 | (obtain ⟨_, _, rfl⟩ := hx; rfl) | (obtain ⟨_, _, _, rfl⟩ := hx; rfl)

/-- C138: a view of numbers is searched and sorted as the array of the numbers it shows. -/
theorem search_numbers_partial {a v : Arr Val} {sh : List Int} {off o : Int} (h : view a sh off = .ok v) (ho : offset v = .ok o) (h0 : 0 ≤ o) (hp : 0 ≤ sh.prod)
    (hl : (a.data.length : Int) < 2 ^ 31) {k : Kind} {d : Val} (hd : d.elems = shown a.data o sh) (hk : heapKind d = some k) (h1 : k ≠ .var) (h2 : k ≠ .pair) (h3 : k ≠ .cdouble) (n : Nat) :
    (∀ w, index n k v w = Libube.index (n + 1) d w) ∧ sort n k v = Libube.sort (n + 1) d := by
  obtain ⟨b, -, g2, g3, g4, g5⟩ := view_shape h
  have hb : b + off = o := by have := g3.offset; rw [ho] at this; injection this with this; exact this.symm
  rw [hb] at g3 g4 g5
  obtain ⟨s1, s2⟩ := shown_get h0 hp g4
  have hn := elems_type hk h1 h2 h3
  have hlike : ∀ (j : Nat) (hj : j < (shown a.data o sh).length), Like ⟨k, v, ((0 + j : Nat) : Int)⟩ (shown a.data o sh)[j] := by
    intro j hj
    rw [Nat.zero_add]
    refine (number_like ho (by omega) (by rw [s1] at hj; omega) (by rw [g2]; exact s2 j hj) ?_).1
    exact hn _ (by rw [hd]; exact List.getElem_mem hj)
  have hi1 : ∀ w, index n k v w = Libube.indexLoop (n + 1) w 0 d.elems := by
    intro w
    unfold index
    rw [g3.size, Outcome.bind_ok, ← s1, hd]
    exact indexLoop_like n k v w _ 0 hlike
  have hi2 : sort n k v = (Libube.sortLoop (n + 1) [] d.elems >>= fun r => .ok (.arr r)) := by
    unfold sort
    rw [g3.size, Outcome.bind_ok, ← s1, hd, sortLoop_like n k v _ [] 0 hlike]
  constructor
  · intro w
    rw [hi1]
    cases d <;> simp [heapKind] at hk <;> subst hk <;> first | rfl | exact absurd rfl h1 | exact absurd rfl h2 | exact absurd rfl h3
  · rw [hi2]
    cases d <;> simp [heapKind] at hk <;> subst hk <;> first | rfl | exact absurd rfl h1 | exact absurd rfl h2 | exact absurd rfl h3

example : view (⟨[.int 5, .int 2, .int 3], none⟩ : Arr Val) [2] 1 = .ok ⟨[.int 5, .int 2, .int 3], some [1, 2, 1]⟩ ∧
    (Val.ints [2, 3]).elems = shown [.int 5, .int 2, .int 3] 1 [2] ∧ heapKind (.ints [2, 3]) = some .int :=
  ⟨view_make (b := 0) rfl (by decide) (by decide) (by decide) (by decide) (by decide) (by decide), rfl, rfl⟩

theorem indexLoop_vars (n : Nat) {v : Arr Val} {ip : List Int} (hv : v.ip = some ip) {o : Int} (ho : offset v = .ok o) (h0 : 0 ≤ o) (w : Val) (xs : List Val) (i : Nat)
    (hb : (i : Int) + xs.length + o < 2 ^ 31) (h : ∀ (j : Nat) (hj : j < xs.length), v.data[(((i + j : Nat) : Int) + o).toNat]? = some xs[j]) :
    indexLoop n .var v w i xs.length = if ∃ x ∈ xs, x.type = w.type ∧ x.size = w.size then .ub (clash w.type) else .ok (-1) := by
  induction xs generalizing i with
  | nil => rw [if_neg (by simp)]; rfl
  | cons x xs ih =>
    rw [List.length_cons] at hb
    have hx := h 0 (by simp)
    obtain ⟨-, -, -, -, -, -, -, e, -⟩ := view_of_vars hv ho (i := (i : Int)) (by omega) (by omega) (x := x) (by simpa using hx)
    rw [List.length_cons, indexLoop, e]
    by_cases hc : x.type = w.type ∧ x.size = w.size
    · rw [if_pos hc, if_pos ⟨x, by simp, hc⟩, hc.1]; rfl
    · rw [if_neg hc, Outcome.bind_ok]
      simp only [Bool.false_eq_true, if_false]
      rw [ih (i + 1) (by push_cast at hb ⊢; omega) (fun j hj => by
        have := h (j + 1) (by simpa using hj)
        rw [show i + (j + 1) = i + 1 + j by omega] at this
        simpa using this)]
      congr 1
      simp [hc]

/-- C138: searching a view of vars never finds anything.  If a var of the type and size of what is looked for is in it, the search is
    undefined, else it says -1. -/
theorem search_vars {a v : Arr Val} {sh : List Int} {off o : Int} (h : view a sh off = .ok v) (ho : offset v = .ok o) (h0 : 0 ≤ o) (hp : 0 ≤ sh.prod)
    (hl : (a.data.length : Int) < 2 ^ 31) (n : Nat) (w : Val) :
    index n .var v w = if ∃ x ∈ shown a.data o sh, x.type = w.type ∧ x.size = w.size then .ub (clash w.type) else .ok (-1) := by
  obtain ⟨b, -, g2, g3, g4, g5⟩ := view_shape h
  obtain ⟨ip, hip⟩ := view_ip h
  have hb : b + off = o := by have := g3.offset; rw [ho] at this; injection this with this; exact this.symm
  rw [hb] at g3 g4 g5
  obtain ⟨s1, s2⟩ := shown_get h0 hp g4
  unfold index
  rw [g3.size, Outcome.bind_ok, ← s1]
  exact indexLoop_vars n hip ho h0 w _ 0 (by rw [s1]; omega) (fun j hj => by rw [Nat.zero_add, g2]; exact s2 j hj)

example : view (⟨[.chars [97], .chars [98, 99]], none⟩ : Arr Val) [2] 0 = .ok ⟨[.chars [97], .chars [98, 99]], some [0, 2, 1]⟩ :=
  view_make (b := 0) rfl (by decide) (by decide) (by decide) (by decide) (by decide) (by decide)

/-- C138: sorting a view of vars is undefined if the first two are of the same type. -/
theorem sort_vars {a v : Arr Val} {sh : List Int} {off o : Int} (h : view a sh off = .ok v) (ho : offset v = .ok o) (h0 : 0 ≤ o) (hp : 0 ≤ sh.prod)
    (hl : (a.data.length : Int) < 2 ^ 31) (n : Nat) {x y : Val} {rest : List Val} (hs : shown a.data o sh = x :: y :: rest) (ht : x.type = y.type)
    (hx : ∀ xs, x ≠ .arr xs) : sort n .var v = .ub (clash x.type) := by
  obtain ⟨b, -, g2, g3, g4, g5⟩ := view_shape h
  obtain ⟨ip, hip⟩ := view_ip h
  have hb : b + off = o := by have := g3.offset; rw [ho] at this; injection this with this; exact this.symm
  rw [hb] at g3 g4 g5
  obtain ⟨s1, s2⟩ := shown_get h0 hp g4
  unfold sort
  rw [g3.size, Outcome.bind_ok, ← s1]
  have e0 : v.data[((0 : Int) + o).toNat]? = some x := by
    have := s2 0 (by rw [hs]; simp)
    rw [g2]; simpa [hs] using this
  have e1 : v.data[((1 : Int) + o).toNat]? = some y := by
    have := s2 1 (by rw [hs]; simp)
    rw [g2]; simpa [hs] using this
  have hlen : (2 : Int) ≤ sh.prod := by
    rw [hs] at s1; simp only [List.length_cons] at s1; omega
  have hv := (view_of_vars_value hip ho g3 (by omega) (by omega) e0).1 (fun xs he => absurd he (hx xs))
  obtain ⟨-, -, -, -, -, -, -, -, hlt⟩ := view_of_vars hip ho (i := 1) (by omega) (by omega) e1
  have hbin : binary n [x] ⟨.var, v, ((0 + 1 : Nat) : Int)⟩ = .ub (clash x.type) := by
    unfold binary
    rw [if_neg (by simp)]
    show (binaryLoop _ 0 1 >>= _) = _
    unfold binaryLoop
    rw [dif_pos (by omega)]
    show (match ltElem n x ⟨.var, v, 1⟩ with | .ok true => _ | .ok false => _ | .thrown e => _ | .ub r => _ | .abort => _ | .diverge => _) >>= _ = _
    rw [hlt, if_pos ht, ht]
    rfl
  rw [hs]
  show (sortLoop n .var v [] 0 (rest.length + 1 + 1) >>= _) = _
  have hfirst : binary n [] ⟨.var, v, ((0 : Nat) : Int)⟩ = .ok 0 := rfl
  rw [sortLoop, hfirst, Outcome.bind_ok]
  rw [show value ⟨.var, v, ((0 : Nat) : Int)⟩ = .ok x from hv, Outcome.bind_ok]
  rw [show insertVar [] x 0 = .ok [x] from rfl, Outcome.bind_ok, sortLoop, hbin]
  rfl

example : shown [.chars [98], .chars [97]] 0 [2] = [.chars [98], .chars [97]] ∧ ∀ xs, Val.chars [98] ≠ .arr xs :=
  ⟨rfl, by intro xs h; cases h⟩

end Libube.ViewElem

#print axioms Libube.ViewElem.atype_of
#print axioms Libube.ViewElem.number_same
#print axioms Libube.ViewElem.view_of_numbers_partial
#print axioms Libube.ViewElem.plain_like
#print axioms Libube.ViewElem.view_of_vars
#print axioms Libube.ViewElem.view_of_vars_value
#print axioms Libube.ViewElem.search_numbers_partial
#print axioms Libube.ViewElem.search_vars
#print axioms Libube.ViewElem.sort_vars

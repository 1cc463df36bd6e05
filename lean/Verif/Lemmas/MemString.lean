import Verif.Lemmas.MemUnary
import Verif.Model.MemString
import Mathlib.Logic.Function.Iterate

/-! # String functors on variables that share arrays -/

namespace Libube.Mem

open MemSpec

variable {α β γ : Type}

/-- The first characters replaced. -/
def upCell (g : α → α) : Cell α → Cell α
  | .raw x => .raw (x.map g)
  | c => c

def upCells (n : Nat) (g : α → α) (cells : List (Cell α)) : List (Cell α) := (cells.take n).map (upCell g) ++ cells.drop n

theorem upCell_id (c : Cell α) : upCell id c = c := by
  cases c <;> simp [upCell]

theorem upCells_id (n : Nat) (cells : List (Cell α)) : upCells n id cells = cells := by
  have : upCell (id : α → α) = id := funext upCell_id
  simp [upCells, this]

theorem upCells_at (n : Nat) (g : α → α) (cells : List (Cell α)) (j : Nat) : (upCells n g cells)[j]? = if j < n then cells[j]?.map (upCell g) else cells[j]? := by
  unfold upCells
  by_cases h1 : j < n
  · rw [if_pos h1]
    by_cases h2 : j < cells.length
    · rw [List.getElem?_append_left (by simp; omega), List.getElem?_map, List.getElem?_take, if_pos h1]
    · rw [List.getElem?_eq_none (by simp; omega), List.getElem?_eq_none (by omega)]
      rfl
  · rw [if_neg h1]
    by_cases h2 : j < cells.length
    · rw [List.getElem?_append_right (by simp; omega), List.getElem?_drop]
      congr 1
      simp
      omega
    · rw [List.getElem?_eq_none (by simp; omega), List.getElem?_eq_none (by omega)]

theorem upCells_comp (n : Nat) (g h : α → α) (cells : List (Cell α)) : upCells n g (upCells n h cells) = upCells n (g ∘ h) cells := by
  have hc : upCell g ∘ upCell h = upCell (g ∘ h) := by
    funext c
    cases c <;> simp [upCell]
  apply List.ext_getElem?
  intro j
  rw [upCells_at, upCells_at, upCells_at]
  by_cases h1 : j < n
  · rw [if_pos h1, if_pos h1, if_pos h1, Option.map_map, hc]
  · rw [if_neg h1, if_neg h1, if_neg h1]

theorem upCells_get {n j : Nat} {g : α → α} {cells : List (Cell α)} {x : α} (hj : j < n) (h : cells[j]? = some (.raw (some x))) :
    (upCells n g cells)[j]? = some (.raw (some (g x))) := by
  rw [upCells_at, if_pos hj, h]
  rfl

theorem upCells_elements {o : Obj α} {xs : List α} (h : Elements o .char xs) (g : α → α) :
    upCells o.size g o.cells = xs.map (fun x => .raw (some (g x))) ++ o.cells.drop xs.length := by
  obtain ⟨-, h2, h3⟩ := h
  rw [upCells, h2]
  congr 1
  apply List.ext_getElem?
  intro j
  rw [List.getElem?_map, List.getElem?_map, List.getElem?_take]
  by_cases hj : j < xs.length
  · rw [if_pos hj, List.getElem?_eq_getElem hj, h3 j _ (List.getElem?_eq_getElem hj)]
    rfl
  · rw [if_neg hj, List.getElem?_eq_none (by omega)]
    rfl

/-- Only characters have changed: those of array `a` by applying `f` as often as `c` says. -/
def Up (f : α → α) (c : Addr → Nat) (mem mem' : List (Option (Obj α))) : Prop :=
  mem.length ≤ mem'.length ∧ ∀ (a : Addr) (o' : Obj α), a < mem.length → mem'[a]? = some (some o') →
    ∃ o : Obj α, mem[a]? = some (some o) ∧ o'.kind = o.kind ∧ o'.size = o.size ∧ o'.cells = if o.kind = .char then upCells o.size f^[c a] o.cells else o.cells

theorem Up.of_kept {f : α → α} {m1 m2 : List (Option (Obj α))} (h : Kept m1 m2) : Up f (fun _ => 0) m1 m2 :=
  ⟨h.1, fun a o' ha ho => by
    obtain ⟨o, h1, h2, h3, h4⟩ := h.2 a o' id ha ho
    refine ⟨o, h1, h2, h3, ?_⟩
    rw [Function.iterate_zero, upCells_id, ite_self]
    exact h4⟩

theorem Up.trans {f : α → α} {c d : Addr → Nat} {m1 m2 m3 : List (Option (Obj α))} (h1 : Up f c m1 m2) (h2 : Up f d m2 m3) : Up f (fun a => c a + d a) m1 m3 := by
  refine ⟨h1.1.trans h2.1, fun a o ha ho => ?_⟩
  obtain ⟨o2, e2, k2, z2, c2⟩ := h2.2 a o (Nat.lt_of_lt_of_le ha h1.1) ho
  obtain ⟨o1, e1, k1, z1, c1⟩ := h1.2 a o2 ha e2
  refine ⟨o1, e1, k2.trans k1, z2.trans z1, ?_⟩
  rw [c2, c1, k1, z1]
  by_cases hk : o1.kind = .char
  · rw [if_pos hk, if_pos hk, if_pos hk, upCells_comp, ← Function.iterate_add, Nat.add_comm]
  · rw [if_neg hk, if_neg hk, if_neg hk]

theorem Up.congr {f : α → α} {c d : Addr → Nat} {m1 m2 : List (Option (Obj α))} (h : Up f c m1 m2) (hc : ∀ a, c a = d a) : Up f d m1 m2 := by
  have : c = d := funext hc
  rw [← this]
  exact h

theorem Up.kept {f : α → α} {c : Addr → Nat} {m1 m2 m3 : List (Option (Obj α))} (h1 : Up f c m1 m2) (h2 : Kept m2 m3) : Up f c m1 m3 :=
  (h1.trans (Up.of_kept h2)).congr fun _ => rfl

theorem Is.up {f : α → α} {c : Addr → Nat} {m1 m2 : List (Option (Obj α))} {a : Addr} {k : Kind} {n : Nat} {cells : List (Cell α)} (h : Is m1 a k n cells) (hu : Up f c m1 m2)
    (hk : k ≠ .char) (hl : Live m2 a) : Is m2 a k n cells := by
  obtain ⟨rc, h⟩ := h
  obtain ⟨o2, h2⟩ := hl
  obtain ⟨o1, h1, e1, e2, e3⟩ := hu.2 a o2 (lt_of_alive h) h2
  rw [h] at h1
  cases h1
  rw [if_neg hk] at e3
  obtain ⟨k', n', rc', cells'⟩ := o2
  simp only at e1 e2 e3
  subst e1 e2 e3
  exact ⟨_, h2⟩

theorem holds_ne_char {k : Kind} (h : Holds k) : k ≠ .char := by rcases h with rfl | rfl <;> decide

/-- What denotes an array still does. -/
theorem Deno.up {f : α → α} {c : Addr → Nat} {m1 m2 : List (Option (Obj α))} {v : V α} {a : Addr} (h : Deno m1 v (.arr a)) (hu : Up f c m1 m2)
    (hl : ∀ b ∈ v.ptr.toList, Live m2 b) : Deno m2 v (.arr a) := by
  cases h with
  | self hv => exact .self hv
  | var h1 h2 h3 h4 h5 => exact .var (h1.up hu (holds_ne_char h2) (hl _ (by simp [V.ptr]))) h2 h3 h4 h5

/-- The array a var denotes is alive as long as the var is. -/
theorem Deno.live {s : State α} {own : List Addr} {v : V α} {a : Addr} (h : Deno s.mem v (.arr a)) (hi : Inv s own) (hv : ∀ b ∈ v.ptr.toList, b ∈ stkPtrs s.stk) : Live s.mem a := by
  cases h with
  | self _ => exact hi.stk_live (hv a (by simp [V.ptr]))
  | var h1 h2 h3 h4 h5 => exact hi.cell_live h1 (List.mem_of_getElem? h3) (Cell.get_ptrs h4 (by simp [V.ptr]))

/-- Strings in arrays in arrays …, at most so deep. -/
inductive Strs (mem : List (Option (Obj α))) : V α → Nat → List Addr → Prop
  | str {a : Addr} {o : Obj α} {xs : List α} {d : Nat} : mem[a]? = some (some o) → Elements o .char xs → Strs mem (.arr a) (d + 1) [a]
  | node {a : Addr} {o : Obj α} {vs : List (V α)} {fs : List (List Addr)} {d : Nat} : mem[a]? = some (some o) → Holds o.kind → vs.length = o.size → fs.length = o.size →
      (∀ (i : Nat) (v : V α), vs[i]? = some v → ∃ c, o.cells[i]? = some c ∧ c.get false = some v) →
      (∀ (i : Nat) (v : V α) (f : List Addr), vs[i]? = some v → fs[i]? = some f → Strs mem v d f) → Strs mem (.arr a) (d + 1) (a :: fs.flatten)

theorem Strs.plain {mem : List (Option (Obj α))} {w : V α} {d : Nat} {fp : List Addr} (h : Strs mem w d fp) : ¬ w.IsRef := by
  cases h <;> exact id

theorem elements_up {f : α → α} {o o' : Obj α} {xs : List α} (h : Elements o .char xs) (h1 : o'.kind = o.kind) (h2 : o'.size = o.size) (h3 : o'.cells = upCells o.size f o.cells) :
    Elements o' .char (xs.map f) := by
  refine ⟨h1.trans h.1, by rw [h2, h.2.1, List.length_map], fun i y hy => ?_⟩
  rw [List.getElem?_map] at hy
  obtain ⟨x, hx, rfl⟩ := Option.map_eq_some_iff.1 hy
  rw [h3]
  exact upCells_get (by rw [h.2.1]; exact (List.getElem?_eq_some_iff.1 hx).1) (h.2.2 i x hx)

theorem Strs.up {f : α → α} {c : Addr → Nat} {m1 m2 : List (Option (Obj α))} {stk : List (V α)} {own : List Addr} (hu : Up f c m1 m2) (hi : Inv ⟨m2, stk⟩ own) {w : V α} {d : Nat}
    {fp : List Addr} (h : Strs m1 w d fp) : (∀ b ∈ w.ptr.toList, Live m2 b) → Strs m2 w d fp := by
  induction h with
  | @str a o xs d h1 h2 =>
    intro hl
    obtain ⟨o2, g⟩ := hl a (by simp [V.ptr])
    obtain ⟨o1, e1, e2, e3, e4⟩ := hu.2 a o2 (lt_of_alive h1) g
    rw [h1] at e1
    cases e1
    rw [if_pos h2.1] at e4
    exact .str g (elements_up h2 e2 e3 e4)
  | @node a o vs fs d h1 h2 h3 h4 h5 h6 ih =>
    intro hl
    have his := Is.up (k := o.kind) (n := o.size) (cells := o.cells) ⟨o.rc, h1⟩ hu (holds_ne_char h2) (hl a (by simp [V.ptr]))
    obtain ⟨rc, g⟩ := id his
    refine .node g h2 h3 h4 h5 fun i v f e1 e2 => ih i v f e1 e2 fun b hb => ?_
    obtain ⟨c, g1, g2⟩ := h5 i v e1
    exact hi.cell_live his (List.mem_of_getElem? g1) (Cell.get_ptrs g2 hb)

theorem heapOf_deno {s : State α} {v : V α} {a : Addr} (h : Deno s.mem v (.arr a)) : heapOf v s = .ok (some a) s := by
  obtain ⟨u, h1, h2⟩ := derefV_tot h
  rcases h2 with rfl | ⟨b, j, k, n, cells, x, -, -, -, h⟩
  · unfold heapOf
    rw [bind_eq h1]
    rfl
  · cases h

theorem charAt_deno {s : State α} {v : V α} {a : Addr} (h : Deno s.mem v (.arr a)) (i : Nat) : charAt v i s = rawAt a i s := by
  obtain ⟨u, h1, h2⟩ := derefV_tot h
  rcases h2 with rfl | ⟨b, j, k, n, cells, x, -, -, -, h⟩
  · unfold charAt
    rw [bind_eq h1]
  · cases h

theorem setChar_deno {s : State α} {u : V α} {b : Addr} {m : Nat} (hm : s.stk[m]? = some u) (h : Deno s.mem u (.arr b)) (i : Nat) (x : α) : setChar (.slot m) i x s = setRaw b i x s := by
  unfold setChar
  rw [bind_eq (readSlot hm)]
  cases h with
  | self _ => rfl
  | @var p j k n cells c _ h1 h2 h3 h4 h5 =>
    simp only
    rw [bind_eq (derefLoc_var h1 h2)]
    simp only
    rw [show (Loc.cell p j) = place false p j from rfl, bind_eq (read_place h1 h3 h4)]

/-- The cells while characters are written. -/
def written (f : α → α) (xs : List α) (cells : List (Cell α)) (i : Nat) : List (Cell α) := (xs.take i).map (fun x => .raw (some (f x))) ++ cells.drop i

theorem written_get {f : α → α} {xs : List α} {cells : List (Cell α)} {i : Nat} (hi : i ≤ xs.length) {j : Nat} (hj : i ≤ j) : (written f xs cells i)[j]? = cells[j]? := by
  rw [written, List.getElem?_append_right (by simp; omega), List.getElem?_drop]
  congr 1
  simp
  omega

theorem written_set {f : α → α} {xs : List α} {cells : List (Cell α)} {i : Nat} (hi : i < xs.length) (hl : i < cells.length) :
    (written f xs cells i).set i (.raw (some (f xs[i]))) = written f xs cells (i + 1) := by
  have e1 : xs.take (i + 1) = xs.take i ++ [xs[i]] := by rw [List.take_add_one, List.getElem?_eq_getElem hi]; rfl
  have e2 : cells.drop i = cells[i] :: cells.drop (i + 1) := List.drop_eq_getElem_cons hl
  have hlen : ((xs.take i).map (fun x => (.raw (some (f x)) : Cell α))).length = i := by simp; omega
  rw [written, written, e1, e2, List.set_append_right _ _ (by omega), hlen, Nat.sub_self, List.set_cons_zero, List.map_append, List.append_assoc]
  rfl

theorem written_zero (f : α → α) (xs : List α) (cells : List (Cell α)) : written f xs cells 0 = cells := by simp [written]

/-- The loop over the characters of array `a`, written to array `b`. -/
theorem mapChars_run {f : α → α} {s : State α} {v u : V α} {a b m : Nat} (hv : Deno s.mem v (.arr a)) (hm : s.stk[m]? = some u) (hu : Deno s.mem u (.arr b))
    {oa ob : Obj α} {xs : List α} (ha : s.mem[a]? = some (some oa)) (hx : Elements oa .char xs) (hb : s.mem[b]? = some (some ob)) (hk : ob.kind = .char)
    (hl : ∀ i, i < xs.length → ∃ y, ob.cells[i]? = some (.raw y)) :
    ∀ (n i : Nat), i + n = xs.length →
      mapChars f v (.slot m) i n (upd s b { ob with cells := written f xs ob.cells i }) = .ok () (upd s b { ob with cells := written f xs ob.cells xs.length }) := by
  intro n
  induction n with
  | zero =>
    intro i hi
    obtain rfl : i = xs.length := by omega
    rfl
  | succ n ih =>
    intro i hi
    have hlt : i < xs.length := by omega
    let t := upd s b { ob with cells := written f xs ob.cells i }
    have kt : Oth (· = b) s.mem t.mem := ⟨by simp [t, upd], fun c o hc _ ho => by
      simp only [t, upd] at ho
      rw [List.getElem?_set_ne (fun h => hc h.symm)] at ho
      exact ⟨o, ho, rfl, rfl, rfl⟩⟩
    have hden : ∀ {z : V α} {c : Addr}, Deno s.mem z (.arr c) → Deno t.mem z (.arr c) := by
      intro z c hz
      cases hz with
      | self h => exact .self h
      | @var p j k nn cells cc _ h1 h2 h3 h4 h5 =>
        have hp : p ≠ b := by
          rintro rfl
          obtain ⟨rc, h1⟩ := h1
          rw [hb] at h1
          cases h1
          exact holds_ne_char h2 hk
        refine .var (h1.kept kt hp ?_) h2 h3 h4 h5
        obtain ⟨rc, h1⟩ := h1
        exact ⟨_, (upd_other (fun h => hp h.symm) _).trans h1⟩
    have hrd : charAt v i t = .ok xs[i] t := by
      rw [charAt_deno (hden hv)]
      by_cases hab : a = b
      · subst hab
        rw [hb] at ha
        cases ha
        refine rawAt_run (upd_get hb _) ?_
        simp only
        rw [written_get (by omega) (Nat.le_refl i)]
        exact hx.2.2 i _ (List.getElem?_eq_getElem hlt)
      · exact rawAt_run ((upd_other (fun h => hab h.symm) _).trans ha) (hx.2.2 i _ (List.getElem?_eq_getElem hlt))
    obtain ⟨y, hy⟩ := hl i hlt
    have hwr : setChar (.slot m) i (f xs[i]) t = .ok () (upd s b { ob with cells := written f xs ob.cells (i + 1) }) := by
      rw [setChar_deno (s := t) hm (hden hu)]
      rw [setRaw_run (upd_get hb _) (y := y) (by rw [written_get (by omega) (Nat.le_refl i)]; exact hy), upd_upd]
      simp only
      rw [written_set hlt (List.getElem?_eq_some_iff.1 hy).1]
    unfold mapChars
    refine (bind_eq hrd).trans ?_
    refine (bind_eq hwr).trans ?_
    exact ih (i + 1) (by omega)

theorem atypeV_deno {s : State α} {v : V α} {a : Addr} {o : Obj α} (hd : Deno s.mem v (.arr a)) (h : s.mem[a]? = some (some o)) : atypeV v s = .ok o.kind s := by
  obtain ⟨u, h1, h2⟩ := derefV_tot hd
  rcases h2 with rfl | ⟨b, j, k, n, cells, x, -, -, -, h⟩
  · unfold atypeV
    simp only [bind_run, M.bind, h1, obj_eq h]
    rfl
  · cases h

theorem written_all (f : α → α) (xs : List α) (cells : List (Cell α)) :
    written f xs cells xs.length = xs.map (fun x => .raw (some (f x))) ++ cells.drop xs.length := by
  rw [written, List.take_length]

/-- Characters of one array changed. -/
theorem upd_raw_inv {s : State α} {own : List Addr} (hi : Inv s own) {a : Addr} {o : Obj α} (ho : s.mem[a]? = some (some o)) (hk : o.kind = .char) {cells : List (Cell α)}
    (hc : ∀ c ∈ cells, ∃ y, c = .raw y) : Inv (upd s a { o with cells := cells }) own := by
  have hnil : ∀ {l : List (Cell α)}, (∀ c ∈ l, ∃ y, c = .raw y) → l.flatMap Cell.ptrs = [] := fun h => flatMap_ptrs_nil fun c hc => by obtain ⟨y, rfl⟩ := h c hc; rfl
  have hraw : ∀ c ∈ o.cells, ∃ y, c = .raw y := fun c hc => by
    have := InvM.typed hi a o ho c hc
    rw [hk] at this
    cases c with
    | raw y => exact ⟨y, rfl⟩
    | var w => cases this
    | pair k w => cases this
  refine InvM.update hi ho (InvM.live hi a o ho) (fun c hc' => ?_) fun b => ?_
  · obtain ⟨y, rfl⟩ := hc c hc'
    show CellOk o.kind _
    rw [hk]
    exact ⟨by decide, by decide⟩
  · simp only [Obj.ptrs]
    rw [hnil hc, hnil hraw]
    rfl

theorem char_raw {s : State α} {own : List Addr} (hi : Inv s own) {a : Addr} {o : Obj α} (ho : s.mem[a]? = some (some o)) (hk : o.kind = .char) : ∀ c ∈ o.cells, ∃ y, c = .raw y := fun c hc => by
  have := InvM.typed hi a o ho c hc
  rw [hk] at this
  cases c with
  | raw y => exact ⟨y, rfl⟩
  | var w => cases this
  | pair k w => cases this

/-- A string in place. -/
theorem mapCase_same [Env α] {f : α → α} {s : State α} {own : List Addr} (hi : Inv s own) {v u : V α} {a m : Nat} {same : Bool} (hv : Deno s.mem v (.arr a)) (hm : s.stk[m]? = some u)
    (hu : Deno s.mem u (.arr a)) {o : Obj α} {xs : List α} (ho : s.mem[a]? = some (some o)) (hx : Elements o .char xs) :
    ∃ mem', mapCase f same v (.slot m) s = .ok () ⟨mem', s.stk⟩ ∧ Inv ⟨mem', s.stk⟩ own ∧ Up f (fun b => [a].count b) s.mem mem' := by
  have his : isSame same v (.slot m) s = .ok true s := by
    unfold isSame
    cases same with
    | true => rfl
    | false =>
      simp only [Bool.false_eq_true, if_false]
      rw [bind_eq (readSlot hm), bind_eq (heapOf_deno hv)]
      simp only
      rw [bind_eq (heapOf_deno hu)]
      simp [pure_run]
  have hsz : sizeV v s = .ok o.size s := sizeV_deno hv (k := o.kind) (cells := o.cells) ⟨o.rc, ho⟩
  have hrun := mapChars_run (f := f) hv hm hu ho hx ho hx.1 (fun i hi => ⟨_, hx.2.2 i _ (List.getElem?_eq_getElem hi)⟩) xs.length 0 (by omega)
  rw [written_zero, upd_self ho, written_all, ← upCells_elements hx f] at hrun
  refine ⟨_, ?_, upd_raw_inv hi ho hx.1 (cells := upCells o.size f o.cells) (fun c hc => ?_), ?_⟩
  · unfold mapCase
    refine (bind_eq his).trans ?_
    simp only [if_true]
    refine (bind_eq hsz).trans ?_
    rw [hx.2.1] at hrun ⊢
    exact hrun
  · rw [upCells_elements hx] at hc
    rcases List.mem_append.1 hc with h | h
    · obtain ⟨x, -, rfl⟩ := List.mem_map.1 h
      exact ⟨_, rfl⟩
    · exact char_raw hi ho hx.1 c (List.mem_of_mem_drop h)
  · refine ⟨by simp [upd], fun b o' hb hb' => ?_⟩
    by_cases hab : a = b
    · subst hab
      rw [List.getElem?_set_self (lt_of_alive ho)] at hb'
      cases hb'
      refine ⟨o, ho, rfl, rfl, ?_⟩
      simp only [List.count_singleton_self, Function.iterate_one]
      rw [if_pos hx.1]
    · rw [List.getElem?_set_ne hab] at hb'
      refine ⟨o', hb', rfl, rfl, ?_⟩
      have : [a].count b = 0 := List.count_eq_zero.2 (by simp; exact fun h => hab h.symm)
      simp only [this, Function.iterate_zero, upCells_id, ite_self]

/-- Calling `broadcast`. -/
theorem strCall_arr [Env α] {S : StrFn α} {d : Nat} {same : Bool} {s : State α} {own : List Addr} (hi : Inv s own) {v : V α} {a : Addr} (hd : Deno s.mem v (.arr a))
    (hv : ∀ b ∈ v.ptr.toList, b ∈ stkPtrs s.stk) {k : Kind} {n : Nat} {cells : List (Cell α)} (h : Is s.mem a k n cells) (hk : k ≠ .char) {lo : Loc}
    {Q : List (Option (Obj α)) → Prop} (hq : ∀ {m m'}, Q m → Kept m m' → Inv ⟨m', s.stk⟩ own → Q m')
    (hb : ∀ m1, Kept s.mem m1 → Inv ⟨m1, s.stk ++ [v]⟩ own →
      ∃ m2, broadcast (strCall S d false) v lo 0 n ⟨m1, s.stk ++ [v]⟩ = .ok () ⟨m2, s.stk ++ [v]⟩ ∧ Inv ⟨m2, s.stk ++ [v]⟩ own ∧ Q m2) :
    ∃ mem', strCall S (d + 1) same v lo s = .ok () ⟨mem', s.stk⟩ ∧ Inv ⟨mem', s.stk⟩ own ∧ Q mem' := by
  obtain ⟨m1, e1, i1, k1, l1⟩ := attach_tot hi (v := v) (fun b hb => hi.stk_live (hv b hb))
  have i1' : Inv ⟨m1, s.stk ++ [v]⟩ own := Inv.push (s := ⟨m1, s.stk⟩) i1
  have hd1 : Deno m1 v (.arr a) := hd.kept k1 (fun _ _ _ => id) fun b hb => i1'.stk_live (up_stk _ (hv b hb))
  obtain ⟨m2, e2, i2, q2⟩ := hb m1 k1 i1'
  obtain ⟨m3, e3, i3, k3⟩ := withVar_tot (s := ⟨m1, s.stk⟩) (v := v) (w := v) (m1 := m2) (b := ())
    (f := fun _ => sizeV v >>= fun n => broadcast (strCall S d false) v lo 0 n) ((bind_eq (sizeV_deno (s := ⟨m1, s.stk ++ [v]⟩) hd1 (h.kept k1 id (l1 a h.live)))).trans e2) i2
  refine ⟨m3, ?_, i3, hq q2 k3 i3⟩
  unfold strCall
  obtain ⟨rc, g⟩ := h
  rw [bind_eq (atypeV_deno hd g), if_neg hk]
  exact (bind_eq e1).trans e3

theorem take_flatten_count {fs : List (List Addr)} {i : Nat} {f : List Addr} (h : fs[i]? = some f) (b : Addr) :
    (fs.take (i + 1)).flatten.count b = (fs.take i).flatten.count b + f.count b := by
  rw [List.take_add_one, h]
  simp [List.count_append]

/-- In place, every string is changed as often as it occurs. -/
theorem strs_ok [Env α] (f : α → α) (d : Nat) : ∀ {s : State α} {own : List Addr} {v u w : V α} {m : Nat} {fp : List Addr} {same : Bool}, Inv s own → Deno s.mem v w → Deno s.mem u w →
    s.stk[m]? = some u → (∀ b ∈ v.ptr.toList, b ∈ stkPtrs s.stk) → Strs s.mem w d fp →
    ∃ mem', strCall (mapCase f) d same v (.slot m) s = .ok () ⟨mem', s.stk⟩ ∧ Inv ⟨mem', s.stk⟩ own ∧ Up f (fun b => fp.count b) s.mem mem' := by
  induction d with
  | zero => intro s own v u w m fp same _ _ _ _ _ h; cases h
  | succ d ih =>
    intro s own v u w m fp same hi hv hu hm hvs h
    cases h with
    | @str a o xs _ h1 h2 =>
      obtain ⟨m2, e2, i2, k2⟩ := mapCase_same (f := f) (same := same) hi hv hm hu h1 h2
      refine ⟨m2, ?_, i2, k2⟩
      unfold strCall
      rw [bind_eq (atypeV_deno hv h1), if_pos h2.1]
      exact e2
    | @node a o vs fs _ h1 h2 h3 h4 h5 h6 =>
      have hus : ∀ b ∈ u.ptr.toList, b ∈ stkPtrs s.stk := fun b hb => mem_stkPtrs hm hb
      let J : Nat → List (Option (Obj α)) → Prop := fun i mem => Deno mem v (.arr a) ∧ Deno mem u (.arr a) ∧ Up f (fun b => (fs.take i).flatten.count b) s.mem mem
      have hst : ∀ {i : Nat} {mem mem' : List (Option (Obj α))} {stk' : List (V α)} {own' : List Addr}, J i mem → Kept mem mem' → Inv ⟨mem', stk'⟩ own' →
          (∀ b ∈ stkPtrs s.stk, b ∈ stkPtrs stk') → J i mem' := by
        rintro i mem mem' stk' own' ⟨j1, j2, j3⟩ hk hi hs
        exact ⟨j1.kept hk (fun _ _ _ => id) fun b hb => hi.stk_live (hs b (hvs b hb)), j2.kept hk (fun _ _ _ => id) fun b hb => hi.stk_live (hs b (hus b hb)), j3.kept hk⟩
      have res := strCall_arr (S := mapCase f) (d := d) (same := same) (lo := .slot m) (Q := J o.size) hi hv hvs (k := o.kind) (n := o.size) (cells := o.cells) ⟨o.rc, h1⟩ (holds_ne_char h2)
        (fun hj hk hi => hst hj hk hi (fun _ h => h)) (fun m1 k1 i1 => by
          refine broadcast_tot (u := u) (a := a) (b := a) (N := o.size) (slot_append hm) (fun b hb => up_stk _ (hvs b hb)) J (fun hj => hj.1) (fun hj => hj.2.1)
            (fun hj hk hi hs => hst hj hk hi fun b hb => hs b (up_stk _ hb)) ?_ (Nat.zero_add _) ?_ i1
          · rintro i mem stk' m' ⟨j1, j2, j3⟩ hlt hi' hs hm' ha
            have hv' := List.getElem?_eq_getElem (l := vs) (show i < vs.length by omega)
            have hf' := List.getElem?_eq_getElem (l := fs) (show i < fs.length by omega)
            obtain ⟨c, g1, g2⟩ := h5 i _ hv'
            have his : Is mem a o.kind o.size o.cells := Is.up ⟨o.rc, h1⟩ j3 (holds_ne_char h2) (hi'.stk_live ha)
            have hstr : Strs mem vs[i] d fs[i] := Strs.up j3 hi' (h6 i _ _ hv' hf') fun b hb => hi'.cell_live his (List.mem_of_getElem? g1) (Cell.get_ptrs g2 hb)
            have hden : Deno mem (.ref a i) vs[i] := .var his h2 g1 g2 hstr.plain
            obtain ⟨m2, e2, i2, k2⟩ := ih (same := false) (s := ⟨mem, stk'⟩) hi' hden hden hm' (fun b hb => mem_stkPtrs hm' hb) hstr
            refine ⟨m2, e2, i2, j1.up k2 fun b hb => i2.stk_live (hs b (up_stk _ (hvs b hb))), j2.up k2 fun b hb => i2.stk_live (hs b (up_stk _ (hus b hb))), (j3.trans k2).congr fun b => ?_⟩
            exact (take_flatten_count hf' b).symm
          · exact ⟨hv.kept k1 (fun _ _ _ => id) fun b hb => i1.stk_live (up_stk _ (hvs b hb)), hu.kept k1 (fun _ _ _ => id) fun b hb => i1.stk_live (up_stk _ (hus b hb)),
              (Up.of_kept k1).congr fun b => by simp⟩)
      obtain ⟨m2, e2, i2, j1, j2, j3⟩ := res
      refine ⟨m2, e2, i2, j3.1, fun b o' hb ho => ?_⟩
      obtain ⟨ob, g1, g2, g3, g4⟩ := j3.2 b o' hb ho
      refine ⟨ob, g1, g2, g3, ?_⟩
      rw [g4]
      by_cases hk : ob.kind = .char
      · have hab : a ≠ b := by
          rintro rfl
          rw [h1] at g1
          cases g1
          exact holds_ne_char h2 hk
        rw [if_pos hk, if_pos hk, List.take_of_length_le (by omega)]
        simp only [List.count_cons_of_ne hab]
      · rw [if_neg hk, if_neg hk]

/-! ## New strings -/

/-- A variable that is a reference to a var becomes that var. -/
theorem derefSlot [Env α] {s : State α} {own : List Addr} {m p j : Nat} {k : Kind} {n : Nat} {cells : List (Cell α)} {c : Cell α} {w : V α} (hi : Inv s own) (hm : s.stk[m]? = some (.ref p j))
    (h1 : Is s.mem p k n cells) (h2 : Holds k) (h3 : cells[j]? = some c) (h4 : c.get false = some w) (h5 : ¬ w.IsRef) :
    ∃ mem', dereference (.slot m) s = .ok (.cell p j) ⟨mem', s.stk.set m w⟩ ∧ Inv ⟨mem', s.stk.set m w⟩ own ∧ Kept s.mem mem' := by
  have hlt := (List.getElem?_eq_some_iff.1 hm).1
  have hs : ∀ x : V α, (s.stk.set m x)[m]? = some x := fun x => List.getElem?_set_self hlt
  obtain ⟨e2, i2⟩ := write_slot (own' := own) hi hm (.arr p) (fun _ => rfl)
  have hwl : ∀ d ∈ w.ptr.toList, Live s.mem d := fun d hd => hi.cell_live h1 (List.mem_of_getElem? h3) (Cell.get_ptrs h4 hd)
  obtain ⟨m3, e3, i3, k3, l3⟩ := attach_tot i2 hwl
  obtain ⟨m4, e4, i4, k4⟩ := share_slot (v := w) i3 (hs (.arr p)) (t := .arr p) id (fun d hd => i3.own_live (List.mem_append_left _ hd))
  simp only [List.set_set] at e4 i4
  obtain ⟨m5, e5, i5, k5⟩ := detach_tot i4
  refine ⟨m5, ?_, i5, Oth.trans (Oth.trans k3 k4) k5⟩
  unfold dereference
  rw [bind_eq (readSlot hm)]
  simp only
  rw [bind_eq (derefLoc_var h1 h2)]
  simp only
  rw [if_neg (by simp), bind_eq e2]
  refine (bind_eq (read_place (q := false) (s := ⟨s.mem, s.stk.set m (.arr p)⟩) h1 h3 h4)).trans ?_
  have : (attachV w >>= fun _ => share (.slot m) w >>= fun _ => detachV w >>= fun _ => (pure (.cell p j) : M α Loc)) ⟨s.mem, s.stk.set m (.arr p)⟩ =
      .ok (.cell p j) ⟨m5, s.stk.set m w⟩ := by
    rw [bind_eq e3, bind_eq e4, bind_eq e5]
    rfl
  cases w with
  | ref _ _ => exact absurd trivial h5
  | _ => exact this

theorem heapResize_char [Env α] {s : State α} {own : List Addr} (hi : Inv s own) {e : Addr} {o : Obj α} (h : s.mem[e]? = some (some o)) (hk : o.kind = .char) {n : Nat} (hn : n + 1 ≤ 2 ^ 30) :
    ∃ o' : Obj α, heapResize e n s = .ok () (upd s e o') ∧ Inv (upd s e o') own ∧ o'.kind = .char ∧ o'.size = n ∧ (∀ i, i < n → ∃ y, o'.cells[i]? = some (.raw y)) := by
  obtain ⟨cells, h1, h2, h3, -, -⟩ := resizeObj_run (o := o) (m := n) (by rw [hk]; exact ⟨by decide, by decide⟩) (char_raw hi h hk) hn
  have hrun : heapResize e n s = .ok () (upd s e { o with size := n, cells := cells }) := by
    unfold heapResize
    rw [bind_eq (obj_eq h)]
    simp only [h1]
    rfl
  obtain ⟨i1, -, -⟩ := heapResize_ok hrun hi
  refine ⟨_, hrun, i1, hk, rfl, fun i hi => ?_⟩
  have hlt : i < cells.length := by omega
  obtain ⟨y, hy⟩ := h2 _ (List.getElem_mem hlt)
  exact ⟨y, by rw [List.getElem?_eq_getElem hlt, hy]⟩

theorem Oth.upd (s : State α) (a : Addr) (o : Obj α) : Oth (· = a) s.mem (upd s a o).mem :=
  ⟨by simp [Mem.upd], fun c o' hc _ ho => by
    simp only [Mem.upd] at ho
    rw [List.getElem?_set_ne (fun h => hc h.symm)] at ho
    exact ⟨o', ho, rfl, rfl, rfl⟩⟩

/-- Filling a new string. -/
theorem fill_new [Env α] {f : α → α} {s : State α} {own : List Addr} (hi : Inv s own) {v t : V α} {a e m : Nat} (hv : Deno s.mem v (.arr a)) (hm : s.stk[m]? = some t)
    (ht : Deno s.mem t (.arr e)) (hae : a ≠ e) {oa oe : Obj α} {xs : List α} (ha : s.mem[a]? = some (some oa)) (hx : Elements oa .char xs) (he : s.mem[e]? = some (some oe))
    (hk : oe.kind = .char) (hvs : ∀ b ∈ v.ptr.toList, b ∈ stkPtrs (s.stk.set m (.arr e))) (hts : ∀ b ∈ t.ptr.toList, b ∈ stkPtrs (s.stk.set m (.arr e)))
    (hf : xs.length + 1 ≤ 2 ^ 30) :
    ∃ mem' o, (sizeV v >>= fun n => resize (.slot m) n >>= fun _ => sizeV v >>= fun n => mapChars f v (.slot m) 0 n) s = .ok () ⟨mem', s.stk.set m (.arr e)⟩ ∧
      Inv ⟨mem', s.stk.set m (.arr e)⟩ own ∧ mem'[e]? = some (some o) ∧ Elements o .char (xs.map f) ∧ Oth (· = e) s.mem mem' := by
  have hlt := (List.getElem?_eq_some_iff.1 hm).1
  have hsz : sizeV v s = .ok oa.size s := sizeV_deno hv (k := oa.kind) (cells := oa.cells) ⟨oa.rc, ha⟩
  -- the variable is the string
  have hr : ∃ m1 o', resize (.slot m) (oa.size : Nat) s = .ok () (upd ⟨m1, s.stk.set m (.arr e)⟩ e o') ∧ Inv (upd ⟨m1, s.stk.set m (.arr e)⟩ e o') own ∧ (∃ z, m1[e]? = some z) ∧
      Kept s.mem m1 ∧ o'.kind = .char ∧ o'.size = xs.length ∧ ∀ i, i < xs.length → ∃ y, o'.cells[i]? = some (.raw y) := by
    rw [hx.2.1]
    cases ht with
    | self _ =>
      have hset : s.stk.set m (.arr e) = s.stk := by
        apply List.ext_getElem?
        intro b
        by_cases hb : m = b
        · subst hb; rw [List.getElem?_set_self hlt, hm]
        · rw [List.getElem?_set_ne hb]
      rw [hset]
      obtain ⟨o', e1, i1, g1, g2, g3⟩ := heapResize_char hi he hk hf
      exact ⟨s.mem, o', (resize_arr hm).trans e1, i1, ⟨_, he⟩, Oth.refl _ _, g1, g2, g3⟩
    | @var p j k n cells c _ h1 h2 h3 h4 h5 =>
      obtain ⟨m1, e1, i1, k1⟩ := derefSlot hi hm h1 h2 h3 h4 h5
      have hm1 : (s.stk.set m (.arr e))[m]? = some (.arr e) := List.getElem?_set_self hlt
      obtain ⟨rc, he1⟩ : Is m1 e oe.kind oe.size oe.cells := Is.kept ⟨oe.rc, he⟩ k1 id (i1.stk_live (mem_stkPtrs hm1 (by simp [V.ptr])))
      obtain ⟨o', e2, i2, g1, g2, g3⟩ := heapResize_char i1 he1 hk hf
      refine ⟨m1, o', ?_, i2, ⟨_, he1⟩, k1, g1, g2, g3⟩
      unfold resize
      rw [if_neg (show ¬ ((xs.length : Int) < 0) by omega), bind_eq e1]
      have hp : Is m1 p k n cells := h1.kept k1 id (i1.stk_live (hts p (by simp [V.ptr])))
      refine (bind_eq (read_place (q := false) (s := ⟨m1, s.stk.set m (.arr e)⟩) hp h3 h4)).trans ?_
      simp only
      rw [bind_eq (readSlot (s := ⟨m1, s.stk.set m (.arr e)⟩) hm1), bind_eq (heapOf_arr e _)]
      exact e2
  obtain ⟨m1, o', e1, i1, ⟨z, hz⟩, k1, g1, g2, g3⟩ := hr
  let s2 : State α := upd ⟨m1, s.stk.set m (.arr e)⟩ e o'
  have ho' : s2.mem[e]? = some (some o') := upd_get (s := ⟨m1, s.stk.set m (.arr e)⟩) hz o'
  have k2 : Oth (· = e) s.mem s2.mem := k1.oth.trans (Oth.upd ⟨m1, s.stk.set m (.arr e)⟩ e o')
  have hpe : ∀ b j, v = .ref b j → b ≠ e := by
    rintro b j rfl rfl
    cases hv with
    | var h1 h2 h3 h4 h5 =>
      obtain ⟨rc, h1⟩ := h1
      rw [he] at h1
      cases h1
      exact holds_ne_char h2 hk
  have hv2 : Deno s2.mem v (.arr a) := hv.kept k2 hpe fun b hb => i1.stk_live (hvs b hb)
  obtain ⟨rca, ha2⟩ : Is s2.mem a oa.kind oa.size oa.cells := Is.kept ⟨oa.rc, ha⟩ k2 hae (hv2.live i1 hvs)
  have hsz2 : sizeV v s2 = .ok oa.size s2 := sizeV_deno hv2 (k := oa.kind) (cells := oa.cells) ⟨rca, ha2⟩
  have hm2 : s2.stk[m]? = some (.arr e) := List.getElem?_set_self hlt
  have hrun := mapChars_run (f := f) hv2 hm2 (.self id) ha2 hx ho' g1 g3 xs.length 0 (by omega)
  rw [written_zero, upd_self ho', written_all] at hrun
  refine ⟨(upd s2 e { o' with cells := xs.map (fun x => .raw (some (f x))) ++ o'.cells.drop xs.length }).mem, _, ?_, ?_, upd_get ho' _, ⟨g1, by simp [g2], fun i y hy => ?_⟩,
    k2.trans (Oth.upd s2 e _)⟩
  · refine (bind_eq hsz).trans ?_
    refine (bind_eq e1).trans ?_
    refine (bind_eq hsz2).trans ?_
    rw [hx.2.1]
    exact hrun
  · refine upd_raw_inv i1 ho' g1 fun c hc => ?_
    rcases List.mem_append.1 hc with h | h
    · obtain ⟨x, -, rfl⟩ := List.mem_map.1 h
      exact ⟨_, rfl⟩
    · exact char_raw i1 ho' g1 c (List.mem_of_mem_drop h)
  · have hlt' := (List.getElem?_eq_some_iff.1 hy).1
    simp only [List.length_map] at hlt'
    simp only
    rw [List.getElem?_append_left (by simpa using hlt'), List.getElem?_map]
    rw [List.getElem?_map] at hy
    obtain ⟨x, hx', rfl⟩ := Option.map_eq_some_iff.1 hy
    rw [hx']
    rfl

/-- What a variable, or the var it refers to, holds that is not array `a`. -/
theorem isSame_not {s : State α} {v t w : V α} {a m : Nat} (hv : Deno s.mem v (.arr a)) (hm : s.stk[m]? = some t) (ht : Deno s.mem t w) (hw : w ≠ .arr a) :
    isSame false v (.slot m) s = .ok false s := by
  unfold isSame
  simp only [Bool.false_eq_true, if_false]
  rw [bind_eq (readSlot hm), bind_eq (heapOf_deno hv)]
  simp only
  obtain ⟨u, h1, h2⟩ := derefV_tot ht
  have hh : heapOf t s = .ok (match u with | .arr b => some b | _ => none) s := by
    unfold heapOf
    rw [bind_eq h1]
    cases u <;> rfl
  rw [bind_eq hh]
  rcases h2 with rfl | ⟨b, j, k, n, cells, x, rfl, -⟩
  · cases u with
    | arr b =>
      simp only
      have : a ≠ b := fun h => hw (by rw [h])
      simp [this, pure_run]
    | _ => rfl
  · rfl

theorem newStr_tot [Env α] {s : State α} {own : List Addr} (hi : Inv s own) (cs : List α) (hf : cs.length + 1 ≤ 2 ^ 30) :
    ∃ ob : Obj α, newStr cs s = .ok (.arr s.mem.length) ⟨s.mem ++ [some ob], s.stk⟩ ∧ Elements ob .char cs ∧ Inv ⟨s.mem ++ [some ob], s.stk⟩ (s.mem.length :: own) ∧
      Kept s.mem (s.mem ++ [some ob]) := by
  obtain ⟨ob, h1, h2, h3, h4⟩ := newStr_run cs s hf
  have i1 := (newStr_keep (lk := false) cs).inv (own := own) (by simpa using hi) h1
  refine ⟨ob, h1, ?_, by simpa [V.ptr] using i1, by simp, fun b o' _ hb ho => ?_⟩
  · exact ⟨h3, h2.size, h2.elem⟩
  · rw [List.getElem?_append_left hb] at ho
    exact ⟨o', ho, rfl, rfl, rfl⟩

/-- What is new does not count. -/
theorem Oth.fresh {P : Addr → Prop} {m1 m2 : List (Option (Obj α))} (h : Oth P m1 m2) (hp : ∀ b, b < m1.length → ¬ P b) : Kept m1 m2 :=
  ⟨h.1, fun b o _ hb ho => h.2 b o (hp b hb) hb ho⟩

theorem mapCase_not [Env α] {f : α → α} {v : V α} {m : Nat} {s s1 s2 : State α} {e : V α} (h1 : isSame false v (.slot m) s = .ok false s) (h2 : newStr [] s = .ok e s1)
    (h3 : assign (.slot m) e s1 = .ok () s2) :
    mapCase f false v (.slot m) s = (sizeV v >>= fun n => resize (.slot m) n >>= fun _ => sizeV v >>= fun n => mapChars f v (.slot m) 0 n) s2 := by
  unfold mapCase
  rw [bind_eq h1]
  simp only [Bool.false_eq_true, if_false]
  refine (bind_eq h2).trans ?_
  exact bind_eq h3

/-- A variable that is no reference gets a new string. -/
theorem mapCase_plain [Env α] {f : α → α} {s : State α} {own : List Addr} (hi : Inv s own) {v t : V α} {a m : Nat} (hv : Deno s.mem v (.arr a)) (hm : s.stk[m]? = some t)
    (ht : ¬ t.IsRef) (hta : t ≠ .arr a) {oa : Obj α} {xs : List α} (ha : s.mem[a]? = some (some oa)) (hx : Elements oa .char xs)
    (hvs : ∀ b ∈ v.ptr.toList, b ∈ stkPtrs (s.stk.set m (.arr s.mem.length))) (hf : xs.length + 1 ≤ 2 ^ 30) :
    ∃ mem' o, mapCase f false v (.slot m) s = .ok () ⟨mem', s.stk.set m (.arr s.mem.length)⟩ ∧ Inv ⟨mem', s.stk.set m (.arr s.mem.length)⟩ own ∧
      mem'[s.mem.length]? = some (some o) ∧ Elements o .char (xs.map f) ∧ Kept s.mem mem' := by
  have hlt := (List.getElem?_eq_some_iff.1 hm).1
  have hal := lt_of_alive ha
  have h1 := isSame_not hv hm (.self ht) hta
  obtain ⟨ob, h2, h3, i1, k1⟩ := newStr_tot hi [] (by simp)
  obtain ⟨m2, h4, i2, k2⟩ := assignSlot_tot (s := ⟨s.mem ++ [some ob], s.stk⟩) (v := .arr s.mem.length) (w := .arr s.mem.length) (own := own) (by simpa [V.ptr] using i1) hm ht (.self id)
  have hs2 : (s.stk.set m (.arr s.mem.length))[m]? = some (.arr s.mem.length : V α) := List.getElem?_set_self hlt
  obtain ⟨rc, he⟩ : Is m2 s.mem.length ob.kind ob.size ob.cells := Is.kept (m1 := s.mem ++ [some ob]) ⟨ob.rc, by simp⟩ k2 id (i2.stk_live (mem_stkPtrs hs2 (by simp [V.ptr])))
  have hv2 : Deno m2 v (.arr a) := hv.kept (k1.trans k2) (fun _ _ _ => id) fun b hb => i2.stk_live (hvs b hb)
  obtain ⟨rca, ha2⟩ : Is m2 a oa.kind oa.size oa.cells := Is.kept ⟨oa.rc, ha⟩ (k1.trans k2) id (hv2.live i2 hvs)
  obtain ⟨m3, o, e3, i3, g1, g2, k3⟩ := fill_new (f := f) i2 hv2 hs2 (.self id) (by omega) ha2 hx he h3.1 (by simpa using hvs)
    (by simpa using fun b hb => mem_stkPtrs hs2 (by simpa using hb)) hf
  rw [List.set_set] at e3 i3
  refine ⟨m3, o, (mapCase_not h1 h2 ?_).trans e3, i3, g1, g2, ((Kept.oth (Oth.trans k1 k2)).trans k3).fresh (by intro b hb h; omega)⟩
  · unfold assign
    exact (bind_eq (readSlot (s := ⟨s.mem ++ [some ob], s.stk⟩) hm)).trans (by cases t <;> first | exact h4 | exact absurd trivial ht)

/-- The element a variable refers to gets a new string; the variable becomes the string. -/
theorem mapCase_ref [Env α] {f : α → α} {s : State α} {own : List Addr} (hi : Inv s own) {v t : V α} {a b m i : Nat} (hv : Deno s.mem v (.arr a)) (hm : s.stk[m]? = some (.ref b i))
    {k : Kind} {n : Nat} {cells : List (Cell α)} {c : Cell α} (hb : Is s.mem b k n cells) (hk : Holds k) (hin : i < n) (hc : cells[i]? = some c) (hct : c.get false = some t) (ht : ¬ t.IsRef)
    (hta : t ≠ .arr a) {oa : Obj α} {xs : List α} (ha : s.mem[a]? = some (some oa)) (hx : Elements oa .char xs) (hvb : ∀ p j, v = .ref p j → p ≠ b)
    (hvo : ∀ p ∈ v.ptr.toList, p ∈ stkPtrs s.stk) (hvs : ∀ p ∈ v.ptr.toList, p ∈ stkPtrs (s.stk.set m (.arr s.mem.length))) (hbs : b ∈ stkPtrs (s.stk.set m (.arr s.mem.length : V α))) (hf : xs.length + 1 ≤ 2 ^ 30) :
    ∃ mem' o, mapCase f false v (.slot m) s = .ok () ⟨mem', s.stk.set m (.arr s.mem.length)⟩ ∧ Inv ⟨mem', s.stk.set m (.arr s.mem.length)⟩ own ∧
      mem'[s.mem.length]? = some (some o) ∧ Elements o .char (xs.map f) ∧ Is mem' b k n (cells.set i (c.put false (.arr s.mem.length))) ∧ Oth (· = b) s.mem mem' := by
  have hlt := (List.getElem?_eq_some_iff.1 hm).1
  have hal := lt_of_alive ha
  have hbl := hb.live
  obtain ⟨rcb, hb0⟩ := hb
  have hblt := lt_of_alive hb0
  have hb : Is s.mem b k n cells := ⟨rcb, hb0⟩
  have hab : a ≠ b := by
    rintro rfl
    rw [hb0] at ha
    cases ha
    exact holds_ne_char hk hx.1
  have h1 := isSame_not hv hm (.var hb hk hc hct ht) hta
  obtain ⟨ob, h2, h3, i1, k1⟩ := newStr_tot hi [] (by simp)
  have hb1 : Is (s.mem ++ [some ob]) b k n cells := ⟨rcb, by rw [List.getElem?_append_left hblt]; exact hb0⟩
  obtain ⟨m2, h4, i2, hb2, k2⟩ := assignRef_tot (s := ⟨s.mem ++ [some ob], s.stk⟩) (v := .arr s.mem.length) (w := .arr s.mem.length) (own := own) (by simpa [V.ptr] using i1) hm hb1 hk hc hct ht (.self id)
    (by simp)
  have hcl : i < cells.length := (List.getElem?_eq_some_iff.1 hc).1
  have hc2 : (cells.set i (c.put false (.arr s.mem.length)))[i]? = some (c.put false (.arr s.mem.length)) := List.getElem?_set_self hcl
  have hd2 : Deno m2 (.ref b i) (.arr s.mem.length) := .var hb2 hk hc2 (Cell.get_put hct _) id
  have hel : Live m2 s.mem.length := hd2.live i2 (by simpa [V.ptr] using mem_stkPtrs hm (by simp [V.ptr]))
  obtain ⟨rc, he⟩ : Is m2 s.mem.length ob.kind ob.size ob.cells := Is.kept (m1 := s.mem ++ [some ob]) ⟨ob.rc, by simp⟩ k2 (by omega) hel
  have hv2 : Deno m2 v (.arr a) := hv.kept (k1.oth.trans k2) hvb fun p hp => i2.stk_live (hvo p hp)
  obtain ⟨rca, ha2⟩ : Is m2 a oa.kind oa.size oa.cells := Is.kept ⟨oa.rc, ha⟩ (k1.oth.trans k2) hab (hv2.live i2 hvo)
  obtain ⟨m3, o, e3, i3, g1, g2, k3⟩ := fill_new (f := f) i2 hv2 hm hd2 (by omega) ha2 hx he h3.1 hvs
    (by simpa [V.ptr] using hbs) hf
  refine ⟨m3, o, (mapCase_not h1 h2 h4).trans e3, i3, g1, g2, hb2.kept k3 (by omega) (i3.stk_live hbs), ?_⟩
  have k12 : Oth (· = b) s.mem m2 := k1.oth.trans k2
  refine ⟨k12.1.trans k3.1, fun p o' hp hpl ho => ?_⟩
  obtain ⟨o2, f1, f2, f3, f4⟩ := k3.2 p o' (by omega) (Nat.lt_of_lt_of_le hpl k12.1) ho
  obtain ⟨o1, g1, g2, g3, g4⟩ := k12.2 p o2 hp hpl f1
  exact ⟨o1, g1, f2.trans g2, f3.trans g3, f4.trans g4⟩

/-- The loop, when a turn leaves something else in its variable for the output. -/
theorem broadcast_new [Env α] {sc : V α → Loc → M α Unit} {v u : V α} {a b : Addr} {stk : List (V α)} {own : List Addr} {m N : Nat} (hm : stk[m]? = some u)
    (hv : ∀ d ∈ v.ptr.toList, d ∈ stkPtrs stk) (J : Nat → List (Option (Obj α)) → Prop)
    (hin : ∀ {i mem}, J i mem → Deno mem v (.arr a)) (hout : ∀ {i mem}, J i mem → Deno mem u (.arr b))
    (hst : ∀ {i mem mem' stk' own'}, J i mem → Kept mem mem' → Inv ⟨mem', stk'⟩ own' → (∀ d ∈ stkPtrs stk, d ∈ stkPtrs stk') → J i mem')
    (hstep : ∀ {i mem}, J i mem → i < N → Inv ⟨mem, stk ++ [.ref b i] ++ [.ref a i]⟩ own →
      ∃ mem' w, sc (.ref a i) (.slot stk.length) ⟨mem, stk ++ [.ref b i] ++ [.ref a i]⟩ = .ok () ⟨mem', stk ++ [w] ++ [.ref a i]⟩ ∧ Inv ⟨mem', stk ++ [w] ++ [.ref a i]⟩ own ∧ J (i + 1) mem') :
    ∀ {n i : Nat} {mem : List (Option (Obj α))}, i + n = N → J i mem → Inv ⟨mem, stk⟩ own →
      ∃ mem', broadcast sc v (.slot m) i n ⟨mem, stk⟩ = .ok () ⟨mem', stk⟩ ∧ Inv ⟨mem', stk⟩ own ∧ J N mem' := by
  intro n
  induction n with
  | zero =>
    intro i mem hn hj hi
    obtain rfl : i = N := by omega
    exact ⟨mem, rfl, hi, hj⟩
  | succ n ih =>
    intro i mem hn hj hi
    have hu : ∀ d ∈ u.ptr.toList, d ∈ stkPtrs stk := fun d hd => mem_stkPtrs hm hd
    obtain ⟨m1, e1, i1, k1⟩ := at_deno hi (fun d hd => hi.stk_live (hu d hd)) (hout hj) i
    have j1 := hst hj k1 i1 (fun _ h => h)
    have i2 : Inv ⟨m1, stk ++ [.ref b i]⟩ own := Inv.push (s := ⟨m1, stk⟩) (v := .ref b i) i1
    obtain ⟨m2, e2, i3, k2⟩ := at_deno i2 (fun d hd => i2.stk_live (up_stk _ (hv d hd))) (hin j1) i
    have j2 := hst j1 k2 i3 (fun d hd => up_stk _ hd)
    have i4 : Inv ⟨m2, stk ++ [.ref b i] ++ [.ref a i]⟩ own := Inv.push (s := ⟨m2, stk ++ [.ref b i]⟩) (v := .ref a i) i3
    obtain ⟨m3, w, e3, i5, j3⟩ := hstep j2 (by omega) i4
    obtain ⟨m4, d4, i6, k4⟩ := detach_tot (s := ⟨m3, stk ++ [w]⟩) i5.pop
    have e4 : withVar (.ref a i) (fun _ => sc (.ref a i) (.slot stk.length)) ⟨m2, stk ++ [.ref b i]⟩ = .ok () ⟨m4, stk ++ [w]⟩ := withVar_run' e3 (by simp) d4
    have j4 := hst j3 k4 i6 (fun d hd => up_stk _ hd)
    obtain ⟨m5, e5, i7, k5⟩ := withVar_tot (s := ⟨m1, stk⟩) (v := .ref b i) (w := w) (m1 := m4) (b := ())
      (f := fun lr => at' v i >>= fun t => withVar t fun _ => sc t lr) ((bind_eq e2).trans e4) i6
    obtain ⟨m6, e6, i8, j6⟩ := ih (i := i + 1) (by omega) (hst j4 k5 i7 (fun _ h => h)) i7
    refine ⟨m6, ?_, i8, j6⟩
    unfold broadcast
    refine (bind_eq (readSlot (s := ⟨mem, stk⟩) hm)).trans ?_
    refine (bind_eq e1).trans ?_
    exact (bind_eq e5).trans e6

/-- A new array of vars. -/
theorem newHeap_cells [Env α] {s : State α} {own : List Addr} (hi : Inv s own) {k : Kind} (hk : Holds k) {n : Nat} (hn : n ≤ 2 ^ 30) :
    ∃ o : Obj α, newHeap n (some k) s = .ok s.mem.length ⟨s.mem ++ [some o], s.stk⟩ ∧ Inv ⟨s.mem ++ [some o], s.stk⟩ (s.mem.length :: own) ∧ o.kind = k ∧ o.size = n ∧
      (∀ i, i < n → o.cells[i]? = some (freshCell k)) ∧ ∀ c ∈ o.cells, c = freshCell k := by
  have hch := holds_ne_char hk
  obtain ⟨c, hc, hl⟩ := Alloc.allocSize_least (n : Int) (by omega) (by omega)
  have hres : resizeObj (⟨k, 0, 1, []⟩ : Obj α) n = .ok ⟨k, n, 1, List.replicate c.toNat (freshCell k)⟩ := by
    unfold resizeObj
    simp only [if_neg hch]
    rw [hc, Outcome.bind_ok]
    unfold growCells
    rw [if_pos (show ([] : List (Cell α)).length = 0 from rfl), if_neg (by have := hl.2.1; omega), Outcome.bind_ok]
    unfold terminate
    rw [if_neg hch, Outcome.bind_ok]
  have hrun : newHeap n (some k) s = .ok s.mem.length ⟨s.mem ++ [some ⟨k, n, 1, List.replicate c.toNat (freshCell k)⟩], s.stk⟩ := by
    unfold newHeap
    have : liftO (resizeObj (⟨k, 0, 1, []⟩ : Obj α) n) s = .ok ⟨k, n, 1, List.replicate c.toNat (freshCell k)⟩ s := by rw [hres]; rfl
    exact (bind_eq this).trans rfl
  refine ⟨_, hrun, (newHeap_ok hrun hi).1, rfl, rfl, fun i hin => ?_, fun c hc => List.eq_of_mem_replicate hc⟩
  have := hl.2.1
  rw [List.getElem?_replicate, if_pos (by omega)]

theorem newHeap_vars [Env α] {s : State α} {own : List Addr} (hi : Inv s own) {k : Kind} (hk : Holds k) {n : Nat} (hn : n ≤ 2 ^ 30) :
    ∃ o : Obj α, newHeap n (some k) s = .ok s.mem.length ⟨s.mem ++ [some o], s.stk⟩ ∧ Inv ⟨s.mem ++ [some o], s.stk⟩ (s.mem.length :: own) ∧ o.kind = k ∧ o.size = n ∧
      ∀ i, i < n → o.cells[i]? = some (freshCell k) := by
  obtain ⟨o, h1, h2, h3, h4, h5, -⟩ := newHeap_cells hi hk hn
  exact ⟨o, h1, h2, h3, h4, h5⟩

/-- A new array of new strings. -/
theorem strCall_new [Env α] {f : α → α} {s : State α} {own : List Addr} (hi : Inv s own) {v : V α} {a b m : Nat} (hv : Deno s.mem v (.arr a)) (hvs : ∀ p ∈ v.ptr.toList, p ∈ stkPtrs s.stk)
    {k : Kind} {N : Nat} {ca cb : List (Cell α)} {as : List Addr} {xss : List (List α)} (ha : Is s.mem a k N ca) (hk : Holds k) (hab : a ≠ b) (hvb : ∀ p j, v = .ref p j → p ≠ b)
    (hla : as.length = N) (hlx : xss.length = N) (hca : ∀ (i : Nat) (q : Addr), as[i]? = some q → ∃ c, ca[i]? = some c ∧ c.get false = some (.arr q))
    (hel : ∀ (i : Nat) (q : Addr) (xs : List α), as[i]? = some q → xss[i]? = some xs → ∃ o, s.mem[q]? = some (some o) ∧ Elements o .char xs)
    (hfit : ∀ xs ∈ xss, xs.length + 1 ≤ 2 ^ 30)
    (hm : s.stk[m]? = some (.arr b)) (hb : Is s.mem b k N cb) (hcb : ∀ i, i < N → cb[i]? = some (freshCell k)) (d : Nat) :
    ∃ (mem' : List (Option (Obj α))) (es : List Addr) (cells : List (Cell α)), strCall (mapCase f) (d + 2) false v (.slot m) s = .ok () ⟨mem', s.stk⟩ ∧ Inv ⟨mem', s.stk⟩ own ∧ Oth (· = b) s.mem mem' ∧ es.length = N ∧ Is mem' b k N cells ∧
      (∀ (j : Nat) (e : Addr), es[j]? = some e → cells[j]? = some ((freshCell k).put false (.arr e))) ∧
      (∀ (j : Nat) (e : Addr) (xs : List α), es[j]? = some e → xss[j]? = some xs → ∃ o, mem'[e]? = some (some o) ∧ Elements o .char (xs.map f)) ∧
      es.Nodup ∧ ∀ e ∈ es, s.mem.length ≤ e := by
  obtain ⟨rca, ha0⟩ := ha
  have ha : Is s.mem a k N ca := ⟨rca, ha0⟩
  obtain ⟨m1, e1, i1, k1, l1⟩ := attach_tot hi (v := v) (fun p hp => hi.stk_live (hvs p hp))
  have i2 : Inv ⟨m1, s.stk ++ [v]⟩ own := Inv.push (s := ⟨m1, s.stk⟩) i1
  have hbs : b ∈ stkPtrs (s.stk ++ [v]) := up_stk _ (mem_stkPtrs hm (by simp [V.ptr]))
  let J : Nat → List (Option (Obj α)) → Prop := fun i mem => Deno mem v (.arr a) ∧ Oth (· = b) s.mem mem ∧ ∃ (es : List Addr) (cells : List (Cell α)), es.length = i ∧ Is mem b k N cells ∧
    (∀ (j : Nat) (e : Addr), es[j]? = some e → cells[j]? = some ((freshCell k).put false (.arr e))) ∧ (∀ j, i ≤ j → j < N → cells[j]? = some (freshCell k)) ∧
    (∀ (j : Nat) (e : Addr) (xs : List α), es[j]? = some e → xss[j]? = some xs → ∃ o, mem[e]? = some (some o) ∧ Elements o .char (xs.map f)) ∧
    es.Nodup ∧ (∀ e ∈ es, s.mem.length ≤ e ∧ e < mem.length)
  have hst : ∀ {i : Nat} {mem mem' : List (Option (Obj α))} {stk' : List (V α)} {own' : List Addr}, J i mem → Kept mem mem' → Inv ⟨mem', stk'⟩ own' →
      (∀ p ∈ stkPtrs (s.stk ++ [v]), p ∈ stkPtrs stk') → J i mem' := by
    rintro i mem mem' stk' own' ⟨j1, j2, es, cells, j3, j4, j5, j6, j7, j8, j9⟩ hk' hi' hs
    have hb' := j4.kept hk' id (hi'.stk_live (hs b hbs))
    refine ⟨j1.kept hk' (fun _ _ _ => id) fun p hp => hi'.stk_live (hs p (up_stk _ (hvs p hp))), j2.trans hk'.oth, es, cells, j3, hb', j5, j6, fun j e xs he hx => ?_, j8,
      fun e he => ⟨(j9 e he).1, Nat.lt_of_lt_of_le (j9 e he).2 hk'.1⟩⟩
    obtain ⟨o, h1, h2⟩ := j7 j e xs he hx
    have hl : Live mem' e := hi'.cell_live hb' (List.mem_of_getElem? (j5 j e he)) (Cell.get_ptrs (Cell.get_put (fresh_get k hk) _) (by simp [V.ptr]))
    obtain ⟨rc, h3⟩ : Is mem' e o.kind o.size o.cells := Is.kept ⟨o.rc, h1⟩ hk' id hl
    exact ⟨_, h3, h2⟩
  have hstep : ∀ {i : Nat} {mem : List (Option (Obj α))}, J i mem → i < N → Inv ⟨mem, s.stk ++ [v] ++ [.ref b i] ++ [.ref a i]⟩ own →
      ∃ mem' w, strCall (mapCase f) (d + 1) false (.ref a i) (.slot (s.stk ++ [v]).length) ⟨mem, s.stk ++ [v] ++ [.ref b i] ++ [.ref a i]⟩ =
        .ok () ⟨mem', s.stk ++ [v] ++ [w] ++ [.ref a i]⟩ ∧ Inv ⟨mem', s.stk ++ [v] ++ [w] ++ [.ref a i]⟩ own ∧ J (i + 1) mem' := by
    rintro i mem ⟨j1, j2, es, cells, j3, j4, j5, j6, j7, j8, j9⟩ hiN hinv
    obtain ⟨q, hq⟩ : ∃ q, as[i]? = some q := ⟨_, List.getElem?_eq_getElem (by omega)⟩
    obtain ⟨xs, hxs⟩ : ∃ xs, xss[i]? = some xs := ⟨_, List.getElem?_eq_getElem (by omega)⟩
    obtain ⟨c, hc1, hc2⟩ := hca i q hq
    obtain ⟨oq, hq1, hq2⟩ := hel i q xs hq hxs
    have has : a ∈ stkPtrs (s.stk ++ [v] ++ [.ref b i] ++ [.ref a i] : List (V α)) := by rw [stkPtrs_append]; simp [V.ptr]
    have ha' : Is mem a k N ca := ha.kept j2 hab (hinv.stk_live has)
    have hd : Deno mem (.ref a i) (.arr q) := .var ha' hk hc1 hc2 id
    have hqb : q ≠ b := by
      rintro rfl
      obtain ⟨rcb, hb⟩ := hb
      rw [hb] at hq1
      cases hq1
      exact holds_ne_char hk hq2.1
    obtain ⟨rcq, hq'⟩ : Is mem q oq.kind oq.size oq.cells := Is.kept ⟨oq.rc, hq1⟩ j2 hqb (hinv.cell_live ha' (List.mem_of_getElem? hc1) (Cell.get_ptrs hc2 (by simp [V.ptr])))
    have hset : ∀ w : V α, (s.stk ++ [v] ++ [V.ref b i] ++ [V.ref a i]).set (s.stk ++ [v]).length w = s.stk ++ [v] ++ [w] ++ [.ref a i] := by
      intro w
      rw [List.set_append_left _ _ (by simp), set_last]
    obtain ⟨m2, o2, e2, i3, g1, g2, g3, k2⟩ := mapCase_ref (f := f) (s := ⟨mem, s.stk ++ [v] ++ [.ref b i] ++ [.ref a i]⟩) hinv hd (m := (s.stk ++ [v]).length) (b := b) (i := i) (by simp) j4 hk hiN
      (j6 i (Nat.le_refl _) hiN) (fresh_get k hk) id (by simp) hq' hq2 (by rintro p j hp; cases hp; exact hab) (by simpa [V.ptr] using has)
      (by rw [hset, stkPtrs_append]; simp [V.ptr]) (by rw [hset]; exact up_stk _ (up_stk _ hbs)) (hfit xs (List.mem_of_getElem? hxs))
    rw [hset] at e2 i3
    have hbl : b < mem.length := by obtain ⟨rcb, hb⟩ := j4; exact lt_of_alive hb
    have hlen : mem.length < m2.length := lt_of_alive g1
    refine ⟨m2, _, ?_, i3, j1.kept k2 hvb fun p hp => i3.stk_live (up_stk _ (up_stk _ (up_stk _ (hvs p hp)))), j2.trans k2, es ++ [mem.length], _, by simp [j3], g3, fun j e he => ?_,
      fun j hj hjN => ?_, fun j e ys he hy => ?_, ?_, fun e he => ?_⟩
    · unfold strCall
      rw [bind_eq (atypeV_deno hd hq'), if_pos hq2.1]
      exact e2
    · by_cases hji : j < es.length
      · rw [List.getElem?_append_left hji] at he
        rw [List.getElem?_set_ne (by omega)]
        exact j5 j e he
      · have hlt := (List.getElem?_eq_some_iff.1 he).1
        simp only [List.length_append, List.length_singleton] at hlt
        obtain rfl : j = i := by omega
        have : mem.length = e := by simpa [← j3] using he
        subst this
        exact List.getElem?_set_self (List.getElem?_eq_some_iff.1 (j6 j (Nat.le_refl _) hiN)).1
    · rw [List.getElem?_set_ne (by omega)]
      exact j6 j (by omega) hjN
    · by_cases hji : j < es.length
      · rw [List.getElem?_append_left hji] at he
        obtain ⟨o, h1, h2⟩ := j7 j e ys he hy
        have hl : Live m2 e := i3.cell_live g3 (List.mem_of_getElem? (i := j) (by rw [List.getElem?_set_ne (by omega)]; exact j5 j e he))
          (Cell.get_ptrs (Cell.get_put (fresh_get k hk) _) (by simp [V.ptr]))
        have heb : e ≠ b := by
          rintro rfl
          obtain ⟨rcb, hb⟩ := j4
          rw [hb] at h1
          cases h1
          exact holds_ne_char hk h2.1
        obtain ⟨rc, h3⟩ : Is m2 e o.kind o.size o.cells := Is.kept ⟨o.rc, h1⟩ k2 heb hl
        exact ⟨_, h3, h2⟩
      · have hlt := (List.getElem?_eq_some_iff.1 he).1
        simp only [List.length_append, List.length_singleton] at hlt
        obtain rfl : j = i := by omega
        have : mem.length = e := by simpa [← j3] using he
        subst this
        rw [hxs] at hy
        cases hy
        exact ⟨o2, g1, g2⟩
    · rw [List.nodup_append]
      refine ⟨j8, by simp, fun x hx y hy => ?_⟩
      rw [List.mem_singleton] at hy
      have := (j9 x hx).2
      omega
    · rcases List.mem_append.1 he with he | he
      · exact ⟨(j9 e he).1, Nat.lt_trans (j9 e he).2 hlen⟩
      · rw [List.mem_singleton] at he
        subst he
        exact ⟨j2.1, hlen⟩
  have hj0 : J 0 m1 := ⟨hv.kept k1 (fun _ _ _ => id) fun p hp => i1.stk_live (hvs p hp), k1.oth, [], cb, rfl, hb.kept k1 id (i2.stk_live hbs), by simp, fun j _ hj => hcb j hj, by simp, by simp, by simp⟩
  obtain ⟨m3, e3, i4, -, k3, es, cells, h1, h2, h3, -, h4, h5, h6⟩ := broadcast_new (sc := strCall (mapCase f) (d + 1) false) (v := v) (u := .arr b) (a := a) (b := b) (stk := s.stk ++ [v]) (own := own) (m := m) (N := N)
    (get_append hm v) (fun p hp => up_stk _ (hvs p hp)) J (fun h => h.1) (fun _ => .self id) hst hstep (n := N) (i := 0) (by omega) hj0 i2
  have ha1 : Is m1 a k N ca := ha.kept k1 id (l1 a ha.live)
  have hz : sizeV v ⟨m1, s.stk ++ [v]⟩ = .ok N ⟨m1, s.stk ++ [v]⟩ := sizeV_deno hj0.1 ha1
  obtain ⟨m4, e4, i5, k4⟩ := withVar_tot (s := ⟨m1, s.stk⟩) (v := v) (w := v) (m1 := m3) (b := ())
    (f := fun _ => sizeV v >>= fun n => broadcast (strCall (mapCase f) (d + 1) false) v (.slot m) 0 n) ((bind_eq hz).trans e3) i4
  have hb4 := h2.kept k4 id (i5.stk_live (mem_stkPtrs hm (by simp [V.ptr])))
  refine ⟨m4, es, cells, ?_, i5, k3.trans k4.oth, h1, hb4, h3, fun j e xs he hx => ?_, h5, fun e he => (h6 e he).1⟩
  · unfold strCall
    rw [bind_eq (atypeV_deno hv ha0), if_neg (holds_ne_char hk)]
    exact (bind_eq e1).trans e4
  · obtain ⟨o, g1, g2⟩ := h4 j e xs he hx
    have hl : Live m4 e := i5.cell_live hb4 (List.mem_of_getElem? (h3 j e he)) (Cell.get_ptrs (Cell.get_put (fresh_get k hk) _) (by simp [V.ptr]))
    obtain ⟨rc, g3⟩ : Is m4 e o.kind o.size o.cells := Is.kept ⟨o.rc, g1⟩ k4 id hl
    exact ⟨_, g3, g2⟩

end Libube.Mem

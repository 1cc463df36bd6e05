import Verif.Lemmas.MemFind
import Verif.Lemmas.MemVarOps
import Verif.Lemmas.MemKeep
import Verif.Model.MemSort
import Verif.Props.MemAppend

/-! # Sorting in memory gives what sorting values does (C172) -/

namespace Libube.Mem

open MemSpec CString

variable {α : Type}

/-- A value stays as it is as long as only array `a`, which is newer, changes and what is referred to is there. -/
theorem holds_kept [Env α] {N : Numbers α} {m0 m1 : List (Option (Obj α))} {stk : List (V α)} {own : List Addr} {a : Addr} (ha : m0.length ≤ a) (hk : Oth (· = a) m0 m1)
    (hi : Inv ⟨m1, stk⟩ own) {w : V α} {y : Val} (h : HoldsVal N m0 w y) : Alive w m1 → HoldsVal N m1 w y := by
  have keep : ∀ {b : Addr} {o : Obj α}, m0[b]? = some (some o) → Live m1 b → ∃ o', m1[b]? = some (some o') ∧ o'.kind = o.kind ∧ o'.size = o.size ∧ o'.cells = o.cells := by
    intro b o hb hl
    obtain ⟨o', ho'⟩ := hl
    have hlt := (List.getElem?_eq_some_iff.1 hb).1
    obtain ⟨o2, e1, e2⟩ := hk.2 b o' (by omega) hlt ho'
    rw [hb] at e1
    cases e1
    exact ⟨o', ho', e2⟩
  induction h with
  | nil => intro _; exact .nil
  | num h => intro _; exact .num h
  | @nums b o k xs y h1 h2 h3 =>
    intro hl
    obtain ⟨o', g1, g2, g3, g4⟩ := keep h1 (hl b rfl)
    exact .nums g1 ⟨by rw [g2, h2.1], by rw [g3, h2.2.1], fun i x hx => by rw [g4]; exact h2.2.2 i x hx⟩ h3
  | @str b o xs z h1 h2 h3 h4 =>
    intro hl
    obtain ⟨o', g1, g2, g3, g4⟩ := keep h1 (hl b rfl)
    exact .str g1 ⟨by rw [g2, h2.1], by rw [g3, h2.2.1], fun i x hx => by rw [g4]; exact h2.2.2 i x hx⟩ (by rw [g4]; exact h3) h4
  | @list b o ys v h1 h2 h3 h4 h5 ih =>
    intro hl
    obtain ⟨o', g1, g2, g3, g4⟩ := keep h1 (hl b rfl)
    refine .list (v := v) g1 (by rw [g2, h2]) (by rw [g3, h3]) (fun i h => by rw [g4]; exact h4 i h) fun i y hy => ih i y hy fun c hc => ?_
    have hc0 := h4 i (List.getElem?_eq_some_iff.1 hy).1
    rw [← g4] at hc0
    exact hi.cell_live (s := ⟨m1, stk⟩) (a := b) (k := o'.kind) (n := o'.size) ⟨o'.rc, g1⟩ (List.mem_of_getElem? hc0) (by simp [Cell.ptrs, hc])
  | @map b o ys u v h1 h2 h3 h4 h5 h6 ih1 ih2 =>
    intro hl
    obtain ⟨o', g1, g2, g3, g4⟩ := keep h1 (hl b rfl)
    have live : ∀ {i : Nat}, i < ys.length → ∀ c, c ∈ (Cell.pair (u i) (v i)).ptrs → Live m1 c := by
      intro i hil c hc
      have hc0 := h4 i hil
      rw [← g4] at hc0
      exact hi.cell_live (s := ⟨m1, stk⟩) (a := b) (k := o'.kind) (n := o'.size) ⟨o'.rc, g1⟩ (List.mem_of_getElem? hc0) hc
    exact .map (u := u) (v := v) g1 (by rw [g2, h2]) (by rw [g3, h3]) (fun i h => by rw [g4]; exact h4 i h)
      (fun i y hy => ih1 i y hy fun c hc => live (List.getElem?_eq_some_iff.1 hy).1 c (by simp [Cell.ptrs, hc]))
      (fun i y hy => ih2 i y hy fun c hc => live (List.getElem?_eq_some_iff.1 hy).1 c (by simp [Cell.ptrs, hc]))

theorem inv_counted {s : State α} {own : List Addr} (h : Inv s own) : Counted s.mem := h.live

/-- The vars have the values. -/
def AllHold (N : Numbers α) (mem : List (Option (Obj α))) (vs : List (V α)) (ys : List Val) : Prop :=
  vs.length = ys.length ∧ ∀ (i : Nat) (v : V α) (y : Val), vs[i]? = some v → ys[i]? = some y → HoldsVal N mem v y

theorem AllHold.insert {N : Numbers α} {mem : List (Option (Obj α))} {vs : List (V α)} {ys : List Val} (h : AllHold N mem vs ys) {w : V α} {z : Val}
    (hw : HoldsVal N mem w z) (p : Nat) : AllHold N mem (vs.take p ++ w :: vs.drop p) (ys.take p ++ z :: ys.drop p) := by
  have hl := h.1
  refine ⟨by simp [hl], fun i v y hv hy => ?_⟩
  have hlt : (vs.take p).length = (ys.take p).length := by simp [hl]
  by_cases hi : i < (vs.take p).length
  · rw [List.getElem?_append_left hi, List.getElem?_take] at hv
    rw [List.getElem?_append_left (by omega), List.getElem?_take] at hy
    split at hv
    · rename_i hp
      rw [if_pos hp] at hy
      exact h.2 i v y hv hy
    · cases hv
  · rw [List.getElem?_append_right (by omega)] at hv
    rw [List.getElem?_append_right (by omega), ← hlt] at hy
    cases hj : i - (vs.take p).length with
    | zero =>
      rw [hj] at hv hy
      cases hv
      cases hy
      exact hw
    | succ j =>
      rw [hj, List.getElem?_cons_succ, List.getElem?_drop] at hv hy
      exact h.2 _ v y hv hy

/-- An array of vars has the value its elements make. -/
theorem va_holds [Env α] {N : Numbers α} {m0 : List (Option (Obj α))} {s : State α} {own : List Addr} {x a : Nat} {vs : List (V α)} {cells : List (Cell α)} {ys : List Val}
    (h : VA s own x a vs cells) (ha : m0.length ≤ a) (hk : Oth (· = a) m0 s.mem) (hv : AllHold N m0 vs ys) : HoldsVal N s.mem (.arr a) (.arr ys) := by
  obtain ⟨rc, g⟩ := h.is
  refine .list (v := fun i => vs.getD i .nil) g rfl hv.1 (fun i hi => ?_) fun i y hy => ?_
  · have hi' : i < vs.length := by rw [hv.1]; exact hi
    rw [List.getD_eq_getElem?_getD, List.getElem?_eq_getElem hi']
    exact h.elem i _ (List.getElem?_eq_getElem hi')
  · have hi' : i < vs.length := by rw [hv.1]; exact (List.getElem?_eq_some_iff.1 hy).1
    rw [List.getD_eq_getElem?_getD, List.getElem?_eq_getElem hi']
    refine holds_kept (stk := s.stk) ha hk h.inv (hv.2 i _ y (List.getElem?_eq_getElem hi') hy) fun b hb => ?_
    exact h.inv.cell_live h.is (List.mem_of_getElem? (h.elem i _ (List.getElem?_eq_getElem hi'))) (by simp [Cell.ptrs] at hb ⊢; rw [hb])

/-- What the loop of `sort` gives. -/
theorem sortFrom_lift [Env α] (N : Numbers α) (n : Nat) {m0 : List (Option (Obj α))} {v : V α} {c : Addr} {x : Val} (hd : Deno m0 v (.arr c)) (hx : HoldsVal N m0 (.arr c) x)
    {a L : Nat} (ha : m0.length ≤ a) {stk : List (V α)} (hv : ∀ b ∈ v.ptr.toList, b ∈ stkPtrs stk) (hvc : ∀ b, v.ptr = some b → b < m0.length) (hc : ∀ mem own, Inv ⟨mem, stk⟩ own → Oth (· = a) m0 mem → Live mem c)
    {own : List Addr} :
    ∀ (zs : List Val) (i : Nat) (mem : List (Option (Obj α))) (vs : List (V α)) (cells : List (Cell α)) (ys : List Val), x.elems.drop i = zs →
      VA ⟨mem, stk⟩ own L a vs cells → Oth (· = a) m0 mem → AllHold N m0 vs ys → (∀ w ∈ vs, ∃ j, Deno m0 (.ref c j) w) → vs.length + zs.length ≤ 2 ^ 30 →
      match Libube.sortLoop n ys zs with
      | .ok r => ∃ mem' vs' cells', sortFrom N n v (.slot L) i zs.length ⟨mem, stk⟩ = .ok () ⟨mem', stk⟩ ∧ VA ⟨mem', stk⟩ own L a vs' cells' ∧ Oth (· = a) m0 mem' ∧
          AllHold N m0 vs' r ∧ ∀ w ∈ vs', ∃ j, Deno m0 (.ref c j) w
      | .ub u => sortFrom N n v (.slot L) i zs.length ⟨mem, stk⟩ = .ub u
      | .diverge => sortFrom N n v (.slot L) i zs.length ⟨mem, stk⟩ = .diverge
      | _ => True := by
  intro zs
  induction zs with
  | nil =>
    intro i mem vs cells ys _ h hk hh hf _
    exact ⟨mem, vs, cells, rfl, h, hk, hh, hf⟩
  | cons z zs ih =>
    intro i mem vs cells ys hz h hk hh hf hlen
    have hzi : x.elems[i]? = some z := by
      have := congrArg (·[0]?) hz
      simpa [List.getElem?_drop] using this
    have hz' : x.elems.drop (i + 1) = zs := by
      rw [← List.drop_drop, hz]; rfl
    obtain ⟨o, A⟩ := holds_array hx
    have hlc := hc mem own h.inv hk
    have hav : Alive v mem := fun b hb => h.inv.stk_live (hv b (by simp [hb]))
    have hac : Alive (.arr c : V α) mem := fun b hb => by cases hb; exact hlc
    have hcl : c < m0.length := (List.getElem?_eq_some_iff.1 A.obj).1
    have hd1 : Deno mem v (.arr c) := hd.kept hk (fun b j e => by have := hvc b (by rw [e]; rfl); omega) (fun b hb => hav b (by simpa using hb))
    have hx1 : HoldsVal N mem (.arr c) x := holds_kept (stk := stk) ha hk h.inv hx hac
    obtain ⟨o1, A1⟩ := holds_array hx1
    have hcnt : Counted mem := inv_counted h.inv
    obtain ⟨u, du0, hu0⟩ := elem_deno hx hzi
    have du : Deno mem (.ref c i) u := du0.kept hk (fun b j e => by cases e; exact Nat.ne_of_lt (by omega)) (fun b hb => by simp [V.ptr] at hb; subst hb; exact hlc)
    obtain ⟨u', du', hu'⟩ := elem_deno hx1 hzi
    have hr : Alive (.ref c i : V α) mem := fun b hb => by cases hb; exact hlc
    have hres := va_holds h ha hk hh
    have hsz : sizeV v ⟨mem, stk⟩ = .ok x.elems.length ⟨mem, stk⟩ := by
      rw [← A1.size]
      exact sizeV_deno (s := ⟨mem, stk⟩) hd1 ⟨o1.rc, A1.obj⟩
    have hil : i < x.elems.length := (List.getElem?_eq_some_iff.1 hzi).1
    have e1 : at' v i ⟨mem, stk⟩ = .ok (.ref c i) ⟨bump (.ref c i) mem, stk⟩ := at_bump hcnt hav hlc hd1 i
    have e2 : withVar (.ref c i : V α) (fun l => do binaryV N n (← readLoc (.slot L)) (← readLoc l)) ⟨bump (.ref c i) mem, stk⟩ = liftO (Libube.binary n ys z) ⟨mem, stk⟩ := by
      refine with_lift hcnt hr ?_
      have r1 : readLoc (.slot L) ⟨bump (.ref c i) mem, stk ++ [.ref c i]⟩ = .ok (.arr a) ⟨bump (.ref c i) mem, stk ++ [.ref c i]⟩ := readSlot (slot_append h.slot)
      have r2 : readLoc (.slot stk.length) ⟨bump (.ref c i) mem, stk ++ [.ref c i]⟩ = .ok (.ref c i) ⟨bump (.ref c i) mem, stk ++ [.ref c i]⟩ := readTemp _ _ _
      rw [bind_eq r1, bind_eq r2]
      have hb := bump_holds (.ref c i) hres
      exact binaryV_lift N n (bump_counted _ hcnt) (v := .arr a) hb.alive (.self (by simp [V.IsRef])) hb (bump_alive _ hr) (bump_deno _ du') (bump_holds _ hu')
    have start : ∀ {β : Type} (R : β), True → sortFrom N n v (.slot L) i (z :: zs).length ⟨mem, stk⟩ =
        ((withVar (.ref c i : V α) (fun l => do binaryV N n (← readLoc (.slot L)) (← readLoc l))) >>= fun p => do
          insert (.slot L) (← at' v i) p
          sortFrom N n v (.slot L) (i + 1) zs.length) ⟨bump (.ref c i) mem, stk⟩ := by
      intro _ _ _
      rw [List.length_cons, sortFrom, bind_eq hsz, if_pos hil, bind_eq e1]
    have start := start () trivial
    rw [Libube.sortLoop]
    cases hb : Libube.binary n ys z with
    | thrown e => trivial
    | abort => trivial
    | ub q =>
      rw [hb] at e2
      simp only [Outcome.bind_ub]
      rw [start, bind_run]
      unfold M.bind
      rw [e2]
      rfl
    | diverge =>
      rw [hb] at e2
      simp only [Outcome.bind_diverge]
      rw [start, bind_run]
      unfold M.bind
      rw [e2]
      rfl
    | ok p =>
      rw [hb] at e2
      rw [Outcome.bind_ok]
      unfold insertVar
      by_cases hp : p > ys.length
      · rw [if_pos hp]; trivial
      rw [if_neg hp, Outcome.bind_ok]
      obtain ⟨m1, f1, i1, k1, l1⟩ := attach_tot (v := .ref c i) h.inv (fun b hb => hr b (by simpa using hb))
      have hm1 : m1 = bump (.ref c i) mem := by
        have := (attach_bump (stk := stk) hr).symm.trans f1
        cases this; rfl
      subst hm1
      obtain ⟨m2, cells2, f2, h2, k2⟩ := insert_va (p := p) (VA.own h i1 k1) (by rw [hh.1]; omega) (by simp at hlen; omega) (w := u) (show Deno (bump (.ref c i) mem) (.ref c i) u from bump_deno _ du) (fun j e => by cases e; omega)
      have hk2 : Oth (· = a) m0 m2 := (hk.trans k1.oth).trans k2
      have := ih (i + 1) m2 _ cells2 _ hz' h2 hk2 (hh.insert hu0 p) (fun w hw => by
        rcases List.mem_append.1 hw with hw | hw
        · exact hf w (List.mem_of_mem_take hw)
        · rcases List.mem_cons.1 hw with rfl | hw
          · exact ⟨i, du0⟩
          · exact hf w (List.mem_of_mem_drop hw)) (by simp at hlen ⊢; omega)
      have e3 : sortFrom N n v (.slot L) i (z :: zs).length ⟨mem, stk⟩ = sortFrom N n v (.slot L) (i + 1) zs.length ⟨m2, stk⟩ := by
        rw [start]
        refine (bind_eq e2).trans ?_
        rw [bind_eq e1, bind_eq f2]
      rw [e3]
      exact this

/-- What a var on the stack stands for is there. -/
theorem deno_live [Env α] {mem : List (Option (Obj α))} {stk : List (V α)} {own : List Addr} (hi : Inv ⟨mem, stk⟩ own) {v : V α} {c : Addr} (hd : Deno mem v (.arr c))
    (hv : ∀ b ∈ v.ptr.toList, b ∈ stkPtrs stk) : Live mem c := by
  cases hd with
  | self _ => exact hi.stk_live (hv c (by simp [V.ptr]))
  | var h1 h2 h3 h4 h5 => exact hi.cell_live (s := ⟨mem, stk⟩) h1 (List.mem_of_getElem? h3) (Cell.get_ptrs h4 (by simp [V.ptr]))

theorem resizeObj_clean [Env α] {o : Obj α} (hk : o.kind = .var) (m : Nat) (hm : m ≤ 2 ^ 30) (hc : ∀ c ∈ o.cells, c.Clean) :
    ∃ cells, resizeObj o m = .ok { o with size := m, cells := cells } ∧ ∀ c ∈ cells, c.Clean := by
  unfold resizeObj
  rw [if_neg (by rw [hk]; decide)]
  rw [Alloc.allocSize_eq (m : Int) (by omega) (by omega), Outcome.bind_ok]
  generalize hC : (2 : Int) ^ (max (m : Int).toNat 8 - 1).size = C
  have hC0 : 0 ≤ C := by rw [← hC]; positivity
  have ht : ∀ cells : List (Cell α), terminate o.kind cells m = .ok cells := fun cells => by
    unfold terminate
    rw [if_neg (by rw [hk]; decide)]
  unfold growCells
  split
  · rw [if_neg (by omega), Outcome.bind_ok, ht]
    refine ⟨_, rfl, fun c h => ?_⟩
    rw [List.eq_of_mem_replicate h]
    exact fresh_clean _
  · split
    · rw [Outcome.bind_ok, ht]
      exact ⟨_, rfl, app_clean hc _ _⟩
    · rw [Outcome.bind_ok, ht]
      exact ⟨_, rfl, hc⟩

/-- A new variable presized. -/
theorem presize_new [Env α] {mem : List (Option (Obj α))} {stk : List (V α)} {m : Nat} (hm : m ≤ 2 ^ 30) :
    ∃ cells, presize (.slot stk.length) m ⟨mem, stk ++ [.nil]⟩ = .ok () ⟨mem ++ [some ⟨.var, 0, 1, cells⟩], stk ++ [.arr mem.length]⟩ ∧ ∀ c ∈ cells, c.Clean := by
  obtain ⟨c1, e1, g1⟩ := resizeObj_clean (o := (⟨.var, 0, 1, []⟩ : Obj α)) rfl m hm (by simp)
  obtain ⟨c2, e2, g2⟩ := resizeObj_clean (o := (⟨.var, m, 1, c1⟩ : Obj α)) rfl 0 (by omega) g1
  refine ⟨c2, ?_, g2⟩
  have h : (⟨mem, stk ++ [.nil]⟩ : State α).stk[stk.length]? = some .nil := by simp
  have hs : (⟨mem ++ [some ⟨.var, m, 1, c1⟩], stk ++ [.arr mem.length]⟩ : State α).stk[stk.length]? = some (.arr mem.length) := by simp
  have e3 : resize (.slot stk.length) m ⟨mem, stk ++ [.nil]⟩ = .ok () ⟨mem ++ [some ⟨.var, m, 1, c1⟩], stk ++ [.arr mem.length]⟩ := by
    unfold resize
    rw [if_neg (by omega)]
    have hd : dereference (.slot stk.length) ⟨mem, stk ++ [.nil]⟩ = .ok (.slot stk.length) (⟨mem, stk ++ [.nil]⟩ : State α) := by
      unfold dereference
      exact (bind_eq (readSlot h)).trans rfl
    refine (bind_eq hd).trans ((bind_eq (readSlot h)).trans ?_)
    simp only
    unfold wrap
    refine (bind_eq (readSlot h)).trans ?_
    simp only
    have e4 : newHeap m none (⟨mem, stk ++ [.nil]⟩ : State α) = .ok mem.length ⟨mem ++ [some ⟨.var, m, 1, c1⟩], stk ++ [.nil]⟩ := by
      unfold newHeap
      simp only [Option.getD_none]
      rw [e1]
      rfl
    refine (bind_eq e4).trans ?_
    unfold writeLoc
    refine (if_pos (by simp)).trans ?_
    simp
  unfold presize
  refine (bind_eq (readSlot h)).trans ?_
  have hz : sizeV (.nil : V α) ⟨mem, stk ++ [.nil]⟩ = .ok 0 ⟨mem, stk ++ [.nil]⟩ := rfl
  refine (bind_eq hz).trans ((bind_eq e3).trans ?_)
  refine (resize_arr (m := 0) hs).trans ((heapResize_obj (o := ⟨.var, m, 1, c1⟩) (by simp) e2).trans ?_)
  simp [upd]

theorem with_ub {v : V α} {f : Loc → M α β} {s : State α} {u : UB} (h : f (.slot s.stk.length) { s with stk := s.stk ++ [v] } = .ub u) : withVar v f s = .ub u := by
  unfold withVar
  simp only [h]

/-- `sort` of an array. -/
theorem sortV_lift [Env α] (N : Numbers α) (n : Nat) {s : State α} {own : List Addr} (hi : Inv s own) {v : V α} {c : Addr} {x : Val} (hv : ∀ b ∈ v.ptr.toList, b ∈ stkPtrs s.stk)
    (hd : Deno s.mem v (.arr c)) (hx : HoldsVal N s.mem (.arr c) x) (hl : x.elems.length ≤ 2 ^ 30) :
    match Libube.sortLoop n [] x.elems with
    | .ok r => ∃ mem' vs cells, sortV N n v s = .ok (.arr s.mem.length) ⟨mem', s.stk⟩ ∧
        VA ⟨mem', s.stk ++ [.arr s.mem.length]⟩ own s.stk.length s.mem.length vs cells ∧ Oth (· = s.mem.length) s.mem mem' ∧ AllHold N s.mem vs r ∧
        ∀ w ∈ vs, ∃ j, Deno s.mem (.ref c j) w
    | .ub u => sortV N n v s = .ub u
    | .diverge => sortV N n v s = .diverge
    | _ => True := by
  obtain ⟨c0, e0, g0⟩ := presize_new (mem := s.mem) (stk := s.stk) hl
  have hb : ∀ b ∈ v.ptr.toList, b ∈ stkPtrs (s.stk ++ [.arr s.mem.length]) := fun b hb => by
    rw [stkPtrs_append]; exact List.mem_append_left _ (hv b hb)
  have i0 : Inv ⟨s.mem, s.stk ++ [.nil]⟩ own := Inv.push (s := s) (v := .nil) hi
  have i1 : Inv ⟨s.mem ++ [some ⟨.var, 0, 1, c0⟩], s.stk ++ [.arr s.mem.length]⟩ own := by
    simpa using (presize_keep (lk := false) (.slot s.stk.length) x.elems.length).inv (own := own) (by simpa using i0) e0
  have hva : VA ⟨s.mem ++ [some ⟨.var, 0, 1, c0⟩], s.stk ++ [.arr s.mem.length]⟩ own s.stk.length s.mem.length [] c0 :=
    ⟨i1, by simp, ⟨1, by simp⟩, by simp, g0⟩
  have hk : Oth (· = s.mem.length) s.mem (s.mem ++ [some ⟨.var, 0, 1, c0⟩]) := by
    refine ⟨by simp, fun b o' _ hb h => ⟨o', ?_, rfl, rfl, rfl⟩⟩
    rwa [List.getElem?_append_left hb] at h
  have hlt : ∀ b, v.ptr = some b → b < s.mem.length := fun b hb => by
    obtain ⟨o, ho⟩ := hi.stk_live (hv b (by simp [hb]))
    exact (List.getElem?_eq_some_iff.1 ho).1
  have key := sortFrom_lift N n hd hx (le_refl s.mem.length) (L := s.stk.length) hb hlt (fun mem own h hk => by
      refine deno_live h (hd.kept hk (fun b j e => ?_) fun b hb' => h.stk_live (hb b hb')) hb
      have := hlt b (by rw [e]; rfl)
      exact Nat.ne_of_lt this) x.elems 0 _ [] c0 [] rfl hva hk ⟨rfl, by simp⟩ (by simp) (by simpa using hl)
  obtain ⟨o, A⟩ := holds_array hx
  have hsz : sizeV v ⟨s.mem, s.stk ++ [.nil]⟩ = .ok x.elems.length ⟨s.mem, s.stk ++ [.nil]⟩ := by
    rw [← A.size]
    exact sizeV_deno (s := ⟨s.mem, s.stk ++ [.nil]⟩) hd ⟨o.rc, A.obj⟩
  have body : ∀ r, (fun r => do
      let m ← sizeV v
      presize r m
      sortFrom N n v r 0 m
      copyV (← readLoc r) : Loc → M α (V α)) (.slot s.stk.length) ⟨s.mem, s.stk ++ [.nil]⟩ = r ↔
      (sortFrom N n v (.slot s.stk.length) 0 x.elems.length >>= fun _ => readLoc (.slot s.stk.length) >>= fun w => copyV w)
        ⟨s.mem ++ [some ⟨.var, 0, 1, c0⟩], s.stk ++ [.arr s.mem.length]⟩ = r := by
    intro r
    simp only
    rw [bind_eq hsz, bind_eq e0]
  cases hs : Libube.sortLoop n [] x.elems with
  | thrown e => trivial
  | abort => trivial
  | ub u =>
    rw [hs] at key
    refine with_ub ((body _).2 ?_)
    rw [bind_run]
    unfold M.bind
    rw [key]
  | diverge =>
    rw [hs] at key
    refine with_diverge ((body _).2 ?_)
    rw [bind_run]
    unfold M.bind
    rw [key]
  | ok r =>
    rw [hs] at key
    obtain ⟨m1, vs, cells, f1, h1, k1, a1, d1⟩ := key
    obtain ⟨m2, f2, i2, k2, l2⟩ := attach_tot (v := .arr s.mem.length) h1.inv (fun b hb => h1.inv.stk_live (by
      simp [V.ptr] at hb; subst hb; exact h1.stk))
    have f4 : (sortFrom N n v (.slot s.stk.length) 0 x.elems.length >>= fun _ => readLoc (.slot s.stk.length) >>= fun w => copyV w)
        ⟨s.mem ++ [some ⟨.var, 0, 1, c0⟩], s.stk ++ [.arr s.mem.length]⟩ = .ok (.arr s.mem.length) ⟨m2, s.stk ++ [.arr s.mem.length]⟩ := by
      refine (bind_eq f1).trans ((bind_eq (readSlot h1.slot)).trans ?_)
      unfold copyV
      exact (bind_eq f2).trans rfl
    obtain ⟨m3, f3, i3, k3⟩ := withVar_tot (s := s) (v := .nil) (b := (.arr s.mem.length : V α)) (w := .arr s.mem.length) (m1 := m2) (f := fun r => do
      let m ← sizeV v
      presize r m
      sortFrom N n v r 0 m
      copyV (← readLoc r)) ((body _).2 f4) i2
    have i4 : Inv ⟨m3, s.stk ++ [.arr s.mem.length]⟩ own := Inv.push (s := ⟨m3, s.stk⟩) (v := .arr s.mem.length) i3
    have hs4 : (⟨m3, s.stk ++ [.arr s.mem.length]⟩ : State α).stk[s.stk.length]? = some (.arr s.mem.length) := by simp
    refine ⟨m3, vs, cells, f3, ⟨i4, hs4, ?_, h1.elem, h1.clean⟩, (k1.trans k2.oth).trans k3.oth, a1, d1⟩
    exact h1.is.kept (k2.trans k3) id (i4.stk_live (mem_stkPtrs hs4 (by simp [V.ptr])))

end Libube.Mem

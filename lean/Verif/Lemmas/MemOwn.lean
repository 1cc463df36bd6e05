import Verif.Lemmas.MemComplex

/-! # Elements of arrays as arguments -/

namespace Libube.Mem
open MemSpec
variable {α : Type}

theorem setIndex_own [Env α] {P : Prop} {n : Nat} {a : Addr} {i j m : Nat} {s : State α} {o : Obj α} {xs : List α} {x : α}
    (hs : s.stk[n]? = some (.arr a)) (h : s.mem[a]? = some (some o)) (hh : Has P o m xs) (hx : xs[j]? = some x)
    (hi : i + 2 ≤ 2 ^ 30) (hr : 2 ≤ o.rc) :
    ∃ o' : Obj α, setIndex (.slot n) i (.ref a j) s =
        .ok () (upd s a { o' with cells := o'.cells.set i (.raw (some (Env.conv o.kind o.kind x))) }) ∧
      Has P o' (max m (i + 1)) xs ∧ o'.kind = o.kind ∧ o'.rc = o.rc - 1 := by
  let s1 : State α := { s with stk := s.stk ++ [.ref a j] }
  have h0 : s1.mem[a]? = some (some o) := h
  obtain ⟨o', h1, h2, h3, h4⟩ := index_run (s := s1) (i := i) (slot_append hs) h0 hh hi
  obtain ⟨y, hy⟩ := h2.place (i := i) (by omega)
  refine ⟨{ o' with rc := o.rc - 1 }, ?_, h2.rc _, h3, rfl⟩
  let o1 : Obj α := { o' with rc := o.rc, cells := o'.cells.set i (.raw (some (Env.conv o.kind o.kind x))) }
  refine withVar_run (w := .ref a j) (s1 := { upd s a o1 with stk := s.stk ++ [.ref a j] }) ?_ rfl ?_
  · rw [bind_eq h1]
    refine (refAssign_same (o := o') (upd_get h0 _) h2.num hy (h2.elem j x hx) (by omega)).trans ?_
    simp [upd, s1, o1, h3, h4]
  · exact detach_upd (v := V.ref a j) (s := s) (o := o1) rfl h (by simp [o1]; omega)

theorem push_own [Env α] {P : Prop} {n : Nat} {a : Addr} {j : Nat} {s : State α} {o : Obj α} {xs : List α} {x : α}
    (hs : s.stk[n]? = some (.arr a)) (h : s.mem[a]? = some (some o)) (hh : Has P o xs.length xs) (hx : xs[j]? = some x)
    (hn : xs.length + 2 ≤ 2 ^ 30) (hr : 2 ≤ o.rc) :
    ∃ o' : Obj α, push (.slot n) (.ref a j) s = .ok () (upd s a o') ∧
      Has P o' (xs.length + 1) (xs ++ [Env.conv o.kind o.kind x]) ∧ o'.kind = o.kind ∧ o'.rc = o.rc - 1 := by
  let s1 : State α := { s with stk := s.stk ++ [.ref a j] }
  let s2 : State α := upd s1 a { o with rc := o.rc + 1 }
  have h0 : s1.mem[a]? = some (some o) := h
  have hk0 : s1.stk[n]? = some (.arr a) := slot_append hs
  obtain ⟨o', h1, h2, h3, h4⟩ := setIndex_own (i := xs.length) (s := s2) (o := { o with rc := o.rc + 1 }) hk0 (upd_get h0 _) (hh.rc _) hx hn (by simp; omega)
  have h5 := h2.snoc (by omega) (Env.conv o.kind o.kind x)
  let o1 : Obj α := { o' with cells := o'.cells.set xs.length (.raw (some (Env.conv o.kind o.kind x))) }
  refine ⟨{ o1 with rc := o.rc - 1 }, ?_, ?_, h3, rfl⟩
  · have hrc : o1.rc = o.rc := h4
    refine withVar_run (w := .ref a j) (s1 := upd s1 a o1) ?_ rfl ?_
    · rw [bind_eq (readSlot hk0)]
      simp only [bind_eq (definedV_arr a _), Bool.not_true, Bool.false_eq_true, if_false]
      simp only [bind_eq (typeV_arr a _), ne_eq, not_true_eq_false, false_and, if_false]
      rw [bind_eq (typeV_ref_num h0 hh.num)]
      simp only [bind_eq (typeV_arr a _)]
      rw [bind_eq (attach_run (v := V.ref a j) rfl h0), bind_eq (sizeV_arr (upd_get h0 _))]
      show setIndex (.slot n) (o.size : Nat) (.ref a j) s2 = _
      rw [hh.size]
      refine h1.trans ?_
      simp [s2, upd_upd, o1]
    · have := detach_upd (v := V.ref a j) (s := s) (o := o1) (a := a) rfl h (by omega)
      rw [hrc] at this
      exact this
  · rw [show max xs.length (xs.length + 1) = xs.length + 1 by omega] at h5
    exact h5.rc _

/-- `x.unshift(x[j])`: the element is read after the others have moved. -/
theorem unshift_own [Env α] {P : Prop} {n : Nat} {a : Addr} {j : Nat} {s : State α} {o : Obj α} {xs : List α} {x : α}
    (hs : s.stk[n]? = some (.arr a)) (h : s.mem[a]? = some (some o)) (hh : Has P o xs.length xs) (hj : j < xs.length)
    (hx : xs[j - 1]? = some x) (hn : xs.length + 2 ≤ 2 ^ 30) (hr : 2 ≤ o.rc) :
    ∃ o' : Obj α, unshift (.slot n) (.ref a j) s = .ok () (upd s a o') ∧ o'.kind = o.kind ∧ o'.rc = o.rc - 1 ∧
      o'.size = xs.length + 1 ∧ ∀ (i : Nat) (y : α), (x :: xs)[i]? = some y → o'.cells[i]? = some (.raw (some y)) := by
  let s1 : State α := { mem := s.mem, stk := s.stk ++ [.ref a j] }
  have h0 : s1.mem[a]? = some (some o) := h
  have hk0 : s1.stk[n]? = some (.arr a) := slot_append hs
  let s2 : State α := { mem := (upd s1 a { o with rc := o.rc + 1 }).mem, stk := s1.stk ++ [.ref a j] }
  have h02 : s2.mem[a]? = some (some { o with rc := o.rc + 1 }) := upd_get (s := s1) h0 _
  obtain ⟨o', h1, h2, h3, h4, -⟩ := heapResize_run (m := xs.length + 1) h02 (hh.rc (o.rc + 1)) (by omega)
  have hcap := h2.cap
  have hsz := h2.size
  rw [List.take_of_length_le (by omega)] at h2
  obtain ⟨c, cs, hcs⟩ : ∃ c cs, o'.cells = c :: cs := by
    cases hc : o'.cells with
    | nil => rw [hc] at hcap; simp at hcap
    | cons c cs => exact ⟨c, cs, rfl⟩
  obtain ⟨y, hy⟩ := h2.raw c (by rw [hcs]; exact List.mem_cons_self ..)
  have hu0 : (unshifted c o')[0]? = some (.raw y) := by simp [unshifted, hy]
  have hlen : (unshifted c o').length = o'.cells.length := by
    unfold unshifted
    simp [hsz]
    omega
  have hlow : ∀ i, i < xs.length → (unshifted c o')[i + 1]? = o'.cells[i]? := by
    intro i hi
    unfold unshifted
    rw [List.getElem?_cons_succ, List.getElem?_append_left (by simp [hsz]; omega), List.getElem?_take,
      if_pos (by omega)]
  have hread : (unshifted c o')[j]? = some (.raw (some x)) := by
    cases j with
    | zero =>
      have := h2.elem 0 x hx
      rw [hcs] at this
      simpa [unshifted] using this
    | succ j =>
      rw [hlow j (by omega)]
      exact h2.elem j x hx
  let o1 : Obj α := { o' with cells := (unshifted c o').set 0 (.raw (some x)) }
  have hrc : o1.rc = o.rc + 1 := h4
  refine ⟨{ o1 with rc := o.rc - 1 }, ?_, h3, rfl, hsz, ?_⟩
  · refine withVar_run (w := .ref a j) (s1 := upd s1 a { o1 with rc := o.rc }) ?_ rfl
      (detach_upd (v := V.ref a j) (s := s) (o := { o1 with rc := o.rc }) rfl h (by simp; omega))
    rw [bind_eq (readSlot hk0)]
    simp only [bind_eq (definedV_arr a _), Bool.not_true, Bool.false_eq_true, if_false]
    simp only [bind_eq (heapOf_arr a _)]
    rw [bind_eq (readSlot hk0)]
    simp only [bind_eq (heapOf_arr a _)]
    rw [bind_eq (attach_run (v := V.ref a j) rfl h0)]
    unfold heapUnshift
    have hd := detach_upd (v := V.ref a j) (s := s1) (o := o1) rfl h0 (by omega)
    rw [hrc] at hd
    refine withVar_run (w := .ref a j) (s1 := upd s2 a o1) ?_ rfl ?_
    · show (obj a >>= _) s2 = R.ok () (upd s2 a _)
      rw [bind_eq (obj_eq h02)]
      show (heapResize a (o.size + 1) >>= _) s2 = _
      rw [hh.size, bind_eq h1, bind_eq (obj_eq (upd_get h02 o'))]
      rw [if_neg h2.num.1, if_neg h2.num.2]
      unfold unshiftNums
      rw [if_neg (by omega), hcs]
      simp only
      have hset : (setObj a { o' with cells := unshifted c o' } : M α Unit) (upd s2 a o') =
        .ok () (upd s2 a { o' with cells := unshifted c o' }) := by simp [setObj, upd, List.set_set]
      rw [bind_eq hset]
      have hg' : (upd s2 a { o' with cells := unshifted c o' }).mem[a]? = some (some { o' with cells := unshifted c o' }) := upd_get h02 _
      have hg : getV o'.kind (.ref a j) (upd s2 a { o' with cells := unshifted c o' }) =
          .ok x (upd s2 a { o' with cells := unshifted c o' }) := by
        unfold getV
        rw [bind_eq (derefV_ref_num hg' h2.num)]
        simp only [bind_eq (obj_eq hg'), if_true]
        exact rawAt_run hg' hread
      rw [bind_eq hg]
      rw [setRaw_run (o := { o' with cells := unshifted c o' }) hg' hu0, upd_upd]
    · simpa [s2, upd, List.set_set] using hd
  · intro i z hz
    cases i with
    | zero =>
      cases hz
      exact List.getElem?_set_self (by omega)
    | succ i =>
      simp only [List.getElem?_cons_succ] at hz
      have hi : i < xs.length := (List.getElem?_eq_some_iff.1 hz).1
      simp only [o1]
      rw [List.getElem?_set_ne (by omega), hlow i hi]
      exact h2.elem i z hz

theorem bind_thr {β γ : Type} {m : M α β} {f : β → M α γ} {s s1 : State α} {e : Exn} (h : m s = .thrown e s1) :
    (m >>= f) s = .thrown e s1 := by
  rw [bind_run]
  unfold M.bind
  rw [h]

theorem withVar_thr {β : Type} {v w : V α} {f : Loc → M α β} {s s1 s2 : State α} {e : Exn} {mem1 : List (Option (Obj α))}
    (hf : f (.slot s.stk.length) { s with stk := s.stk ++ [v] } = .thrown e s1)
    (hs1 : s1 = { mem := mem1, stk := s.stk ++ [w] })
    (hd : detachV w { mem := mem1, stk := s.stk } = .ok () s2) : withVar v f s = .thrown e s2 := by
  subst hs1
  unfold withVar
  simp only [hf]
  simp [hd]

theorem sizeV_ref_num {b : Addr} {j : Nat} {s : State α} {o : Obj α} (h : s.mem[b]? = some (some o)) (hk : IsNum o.kind) :
    sizeV (.ref b j) s = .ok 1 s := by
  unfold sizeV
  rw [bind_eq (derefV_ref_num h hk)]
  rfl

/-- What `insert` has done when it finds that it has been given a reference to a number. -/
theorem insertNums_ref [Env α] {P : Prop} {k kv : Nat} {a b : Addr} {j p : Nat} {s1 : State α} {o : Obj α} {xs : List α}
    (hk1 : s1.stk[k]? = some (.arr a)) (hkv1 : s1.stk[kv]? = some (.ref b j)) (h1 : s1.mem[a]? = some (some o))
    (hh : Has P o xs.length xs) (hp : p ≤ xs.length) (hr : 1 ≤ o.rc) (hn : xs.length + 2 ≤ 2 ^ 30)
    (hb0 : ∃ ob, s1.mem[b]? = some (some ob) ∧ IsNum ob.kind)
    (hb : ∀ t : Obj α, t.kind = o.kind → ∃ ob, (upd s1 a t).mem[b]? = some (some ob) ∧ IsNum ob.kind) :
    ∃ o' : Obj α, insertNums (.slot k) (.slot kv) (.ref b j) p xs.length s1 =
        .thrown (.error "Heap::derefInt: Not a reference") (upd s1 a o') ∧ o'.kind = o.kind ∧ o'.rc = o.rc ∧ o'.size = xs.length + 1 ∧
      ∀ (i : Nat) (y : α), (xs.take p ++ (xs.drop p).take 1 ++ (xs.drop p).map (Env.conv o.kind o.kind))[i]? = some y →
        o'.cells[i]? = some (.raw (some y)) := by
  obtain ⟨o1, hres, hh1, hk1', hrc1, -⟩ := resize_run (m := xs.length + 1) hk1 h1 hh hn
  rw [List.take_of_length_le (by omega)] at hh1
  have hxs : ∀ q, q < xs.length → ∃ x, xs[q]? = some x := fun q hq => ⟨xs[q], List.getElem?_eq_getElem hq⟩
  obtain ⟨c2, hmv, hc2⟩ := moveUp_run 1 (xs.length + 1 - (p + 1)) (xs.length + 1 - 1) (upd s1 a o1) o1 hk1 (upd_get h1 _)
    (by omega) hh1.num (by omega)
    (fun q hq1 hq2 => by
      obtain ⟨x, hx⟩ := hxs (q - 1) (by omega)
      exact ⟨x, hh1.elem _ x hx⟩)
    (fun q hq1 hq2 => hh1.place (by omega))
  rw [upd_upd] at hmv
  refine ⟨{ o1 with cells := c2 }, ?_, hk1', hrc1, hh1.size, ?_⟩
  · unfold insertNums
    obtain ⟨ob, g0, g0'⟩ := hb0
    rw [bind_eq (sizeV_ref_num g0 g0')]
    have hres' : resize (.slot k) ((xs.length : Int) + (1 : Nat)) s1 = .ok () (upd s1 a o1) := by
      rw [← hres]
      congr 1
    rw [bind_eq hres']
    have hsz1 : ∀ {β : Type} (f : Nat → β), f o1.size = f (xs.length + 1) := fun f => by rw [hh1.size]
    have hrk : ∀ t : Obj α, readLoc (.slot k) (upd s1 a t) = .ok (.arr a) (upd s1 a t) := fun t => readSlot hk1
    have hrkv : ∀ t : Obj α, readLoc (.slot kv) (upd s1 a t) = .ok (.ref b j) (upd s1 a t) := fun t => readSlot hkv1
    have hsz : ∀ t : Obj α, t.kind = o.kind → sizeV (.ref b j) (upd s1 a t) = .ok 1 (upd s1 a t) := fun t ht => by
      obtain ⟨ob, g, g'⟩ := hb t ht
      exact sizeV_ref_num g g'
    rw [bind_eq (hrk _), bind_eq (sizeV_arr (upd_get h1 _)), bind_eq (hrkv _), bind_eq (hsz _ hk1'),
      hsz1 (fun z => (moveUp (.slot k) 1 (z - 1) (z - (p + 1)) >>= _) _), bind_eq hmv, bind_eq (hrkv _),
      bind_eq (hsz { o1 with cells := c2 } hk1')]
    unfold copyIn
    rw [bind_eq (hrkv _), bind_eq (hsz { o1 with cells := c2 } hk1'), if_pos (by omega)]
    refine bind_thr ?_
    unfold index
    rw [bind_eq (hrkv _)]
    obtain ⟨ob, g, g'⟩ := hb { o1 with cells := c2 } hk1'
    simp only
    rw [if_neg (by simp)]
    rw [bind_eq (derefLoc_num g g')]
    rfl
  · intro i y hy
    simp only
    rw [hc2 i]
    have hlp : (xs.take p).length = p := by simp; omega
    by_cases hi : i < p
    · rw [if_neg (by omega)]
      rw [List.append_assoc, List.getElem?_append_left (by omega), List.getElem?_take, if_pos hi] at hy
      exact hh1.elem i y hy
    · by_cases hpn : p < xs.length
      · have hl1 : ((xs.drop p).take 1).length = 1 := by simp; omega
        by_cases hip : i = p
        · subst hip
          rw [if_neg (by omega)]
          rw [List.append_assoc, List.getElem?_append_right (by omega), List.getElem?_append_left (by omega), hlp] at hy
          simp only [Nat.sub_self, List.getElem?_take, List.getElem?_drop, Nat.add_zero, Nat.zero_lt_one, if_true] at hy
          exact hh1.elem i y hy
        · rw [List.getElem?_append_right (by simp [hlp, hl1]; omega)] at hy
          simp only [List.length_append, hlp, hl1, List.getElem?_map, List.getElem?_drop] at hy
          rw [show p + (i - (p + 1)) = i - 1 by omega] at hy
          obtain ⟨z, hz, rfl⟩ := Option.map_eq_some_iff.1 hy
          have := (List.getElem?_eq_some_iff.1 hz).1
          rw [if_pos (by omega), hh1.elem _ z hz, hk1']
          rfl
      · have hd : xs.drop p = [] := List.drop_of_length_le (by omega)
        rw [hd] at hy
        have := (List.getElem?_eq_some_iff.1 hy).1
        simp only [List.length_append, hlp, List.take_nil, List.map_nil, List.length_nil] at this
        omega

end Libube.Mem

import Verif.Lemmas.MemInsert
import Verif.Lemmas.MemAppend
import Verif.Lemmas.MemProg
import Verif.Spec.MemArray

/-! # Statements on arrays of numbers -/

namespace Libube.Mem

open MemSpec

/-- Variable `n` is array `a`, which has elements `xs`. -/
structure Good [Env α] (P : Prop) (s : State α) (n : Nat) (a : Addr) (k : Kind) (xs : List α) : Prop where
  ex : ∃ o : Obj α, s.mem[a]? = some (some o) ∧ Has P o xs.length xs ∧ o.kind = k ∧ 1 ≤ o.rc
  slot : s.stk[n]? = some (.arr a)

/-- Only array `a` has changed; more may have been made. -/
def Only (s s' : State α) (a : Addr) : Prop :=
  s'.stk = s.stk ∧ s.mem.length ≤ s'.mem.length ∧ ∀ b, b ≠ a → b < s.mem.length → s'.mem[b]? = s.mem[b]?

theorem Only.refl (s : State α) (a : Addr) : Only s s a := ⟨rfl, Nat.le_refl _, fun _ _ _ => rfl⟩

theorem Only.trans {s1 s2 s3 : State α} {a : Addr} (h : Only s1 s2 a) (h' : Only s2 s3 a) : Only s1 s3 a :=
  ⟨h'.1.trans h.1, Nat.le_trans h.2.1 h'.2.1, fun b hb hl =>
    (h'.2.2 b hb (Nat.lt_of_lt_of_le hl h.2.1)).trans (h.2.2 b hb hl)⟩

theorem only_upd (s : State α) (a : Addr) (o : Obj α) : Only s (upd s a o) a :=
  ⟨rfl, by simp [upd], fun b hb _ => by simp [upd, List.getElem?_set_ne (Ne.symm hb)]⟩

theorem only_append {s : State α} {a : Addr} (o : Obj α) :
    Only s { mem := (upd s a o).mem ++ [none], stk := s.stk } a :=
  ⟨rfl, by simp [upd], fun b hb hl => by
    rw [List.getElem?_append_left (by simpa [upd] using hl)]
    simp [upd, List.getElem?_set_ne (Ne.symm hb)]⟩

theorem newNum_scalar [Env α] {j : Kind} (hj : Scalar j) (x : α) (s : State α) :
    eval (.num j x) s = .ok (.num j x) s := by
  have h1 : ¬ (j = .var ∨ j = .pair) := by
    rintro (h | h)
    · exact hj.1.1 h
    · exact hj.1.2 h
  show newNum j x s = _
  unfold newNum
  rw [if_neg h1]
  unfold boxed
  rw [if_neg hj.2]
  rfl

theorem good_upd [Env α] {P : Prop} {s : State α} {n : Nat} {a : Addr} {k : Kind} {ys : List α} {o o' : Obj α}
    (hs : s.stk[n]? = some (.arr a)) (h : s.mem[a]? = some (some o)) (hh : Has P o' ys.length ys)
    (hk : o'.kind = k) (hr : 1 ≤ o'.rc) : Good P (upd s a o') n a k ys :=
  ⟨⟨o', upd_get h o', hh, hk, hr⟩, hs⟩

theorem run_pop [Env α] {P : Prop} {s : State α} {n : Nat} {a : Addr} {k : Kind} {xs : List α}
    (hg : Good P s n a k xs) (hx : xs ≠ []) (hn : xs.length + 1 ≤ 2 ^ 30) :
    ∃ s', run (.eval (.pop n)) s = .ok () s' ∧ Good P s' n a k xs.dropLast ∧ Only s s' a := by
  obtain ⟨⟨o, h, hh, hk, hr⟩, hs⟩ := hg
  have hpos : 0 < xs.length := List.length_pos_iff.2 hx
  obtain ⟨m, hm⟩ : ∃ m, xs.length = m + 1 := ⟨xs.length - 1, by omega⟩
  rw [hm] at hh
  obtain ⟨o', h1, h2, h3, -⟩ := pop_run hs h hh (by omega) hr
  replace h2 := h2.any (Q := P) (fun _ => trivial)
  have hl : xs.dropLast = xs.take m := by rw [List.dropLast_eq_take, hm]; rfl
  have hlen : (xs.take m).length = m := by simp; omega
  refine ⟨upd s a { o' with rc := o.rc }, ?_, ?_, only_upd _ _ _⟩
  · show (pop (.slot n) >>= fun v => detachV v) s = _
    refine (bind_eq h1).trans ?_
    refine (detach_upd (v := .ref a m) rfl h (by simp; omega)).trans ?_
    rfl
  · rw [hl]
    refine good_upd hs h ?_ (h3.trans hk) hr
    rw [hlen]
    exact h2.rc _

theorem newStr_run [Env α] (cs : List α) (s : State α) (hn : cs.length + 1 ≤ 2 ^ 30) :
    ∃ ob : Obj α, eval (.str cs) s = .ok (.arr s.mem.length) { mem := s.mem ++ [some ob], stk := s.stk } ∧
      Has True ob cs.length cs ∧ ob.kind = .char ∧ ob.rc = 1 := by
  obtain ⟨cells, h1, h2, h3, -, h5⟩ := resizeObj_run (o := (⟨.char, 0, 1, []⟩ : Obj α)) (m := cs.length)
    ⟨by simp, by simp⟩ (by intro c hc; exact absurd hc List.not_mem_nil) hn
  refine ⟨⟨.char, cs.length, 1, cs.map (fun x => .raw (some x)) ++ cells.drop cs.length⟩, ?_,
    ⟨⟨by simp, by simp⟩, rfl, Nat.le_refl _, ?_, ?_, ?_, ?_⟩, rfl, rfl⟩
  · show newStr cs s = _
    unfold newStr
    rw [h1]
    rfl
  · intro i x hx
    have := (List.getElem?_eq_some_iff.1 hx).1
    rw [List.getElem?_append_left (by simpa using this), List.getElem?_map, hx]
    rfl
  · simp
  · intro c hc
    rcases List.mem_append.1 hc with hc | hc
    · obtain ⟨x, -, rfl⟩ := List.mem_map.1 hc
      exact ⟨_, rfl⟩
    · exact h2 c (List.mem_of_mem_drop hc)
  · intro _ _
    rw [List.getElem?_append_right (by simp)]
    simpa using h5 rfl

theorem copy_run [Env α] {P : Prop} {a : Addr} {s : State α} {o : Obj α} {n : Nat} {xs : List α}
    (h : s.mem[a]? = some (some o)) (hh : Has P o n xs) (hx : xs.length = n) (hn : n + 1 ≤ 2 ^ 30)
    (hk1 : o.kind ≠ .cfloat) (hk2 : o.kind ≠ .cdouble) :
    ∃ ob : Obj α, copy (.arr a) s = .ok (.arr s.mem.length) { mem := s.mem ++ [some ob], stk := s.stk } ∧
      Has True ob n xs ∧ ob.kind = o.kind ∧ ob.rc = 1 := by
  obtain ⟨cells, h1, h2, h3, -, h5⟩ := resizeObj_run (o := (⟨o.kind, 0, 1, []⟩ : Obj α)) (m := n)
    hh.num (by intro c hc; exact absurd hc List.not_mem_nil) hn
  have hcap := hh.cap
  have hb : Has True (⟨o.kind, n, 1, o.cells.take n ++ cells.drop n⟩ : Obj α) n xs := by
    refine ⟨hh.num, rfl, by omega, ?_, ?_, ?_, ?_⟩
    · intro i x hi
      have := (List.getElem?_eq_some_iff.1 hi).1
      show (o.cells.take n ++ cells.drop n)[i]? = _
      rw [List.getElem?_append_left (by simp; omega), List.getElem?_take, if_pos (by omega)]
      exact hh.elem i x hi
    · simp
      omega
    · intro c hc
      rcases List.mem_append.1 hc with hc | hc
      · exact hh.raw c (List.mem_of_mem_take hc)
      · exact h2 c (List.mem_of_mem_drop hc)
    · intro _ hch
      show (o.cells.take n ++ cells.drop n)[n]? = _
      rw [List.getElem?_append_right (by simp)]
      have : n - (o.cells.take n).length = 0 := by simp; omega
      rw [this]
      simpa using h5 hch
  refine ⟨⟨o.kind, n, 1, o.cells.take n ++ cells.drop n⟩, ?_, hb, rfl, rfl⟩
  have hc : copyObj o = .ok ⟨o.kind, n, 1, o.cells.take n ++ cells.drop n⟩ := by
    unfold copyObj
    rw [hh.size, h1, Outcome.bind_ok]
    have key : (if n ≤ o.cells.length ∧ n ≤ cells.length then
        (.ok ⟨o.kind, n, 1, o.cells.take n ++ cells.drop n⟩ : Outcome (Obj α)) else .ub .outOfBounds) =
        .ok ⟨o.kind, n, 1, o.cells.take n ++ cells.drop n⟩ := if_pos ⟨hcap, h3⟩
    rw [← key]
    revert hk1 hk2
    generalize o.kind = kk
    cases kk <;> simp
  unfold copy
  rw [bind_eq (heapOf_arr a s)]
  simp only
  rw [bind_eq (obj_eq h), hc]
  show (attachAll (Obj.ptrs ⟨o.kind, n, 1, o.cells.take n ++ cells.drop n⟩) >>= _) s = _
  rw [hb.ptrs]
  rfl

/-- `x.append(e)` is `x.insert(e, x.size())`. -/
theorem appendVar_eq [Env α] {k : Nat} {a : Addr} {e : Exp α} {v : V α} {s s1 : State α} {o : Obj α} (he : eval e s = .ok v s1)
    (hk : s1.stk[k]? = some (.arr a)) (h : s1.mem[a]? = some (some o)) : run (.appendVar k e) s = run (.insert k e o.size) s := by
  show (eval e >>= fun v => _) s = (eval e >>= fun v => _) s
  rw [bind_eq he, bind_eq he, bind_eq (readSlot hk), bind_eq (sizeV_arr h)]

/-- Inserting a number. -/
theorem step_insert [Env α] (hid : ConvSame α) {P : Prop} {s : State α} {n : Nat} {a : Addr} {k : Kind} {xs : List α}
    (hk : k ≠ .cdouble) (hg : Good P s n a k xs) {j : Kind} {x : α} {p : Nat} (hj : Scalar j) (hp : p ≤ xs.length) (hn : xs.length + 2 ≤ 2 ^ 30) :
    ∃ s', run ((Op.insert j x p).stmt n k) s = .ok () s' ∧ Good P s' n a k ((Op.insert j x p).list k xs) ∧ Only s s' a := by
  obtain ⟨⟨o, h, hh, hko, hr⟩, hs⟩ := hg
  obtain ⟨o', h1, h2, h3, h4⟩ := insert_num (x := x) (fun x => hid _ x (by rw [hko]; exact hk)) (hid j x hj.2) hj.1 hs h hh rfl hp hr hn
  refine ⟨_, (bind_eq (newNum_scalar hj x s)).trans h1, ⟨⟨o', ?_, ?_, h3.trans hko, by rw [h4]; exact hr⟩, hs⟩,
    only_append _⟩
  · have := lt_of_alive h
    show ((upd s a o').mem ++ [none])[a]? = _
    rw [List.getElem?_append_left (by simpa [upd] using this)]
    exact upd_get h o'
  · have hl : (Op.list k (.insert j x p) xs).length = xs.length + 1 := by
      have := hp
      simp only [Op.list, List.length_append, List.length_take, List.length_drop, List.length_singleton]
      omega
    rw [hl]
    rw [hko] at h2
    exact h2

/-- Inserting a string. -/
theorem step_insertStr [Env α] (hid : ConvSame α) {P : Prop} {s : State α} {n : Nat} {a : Addr} {k : Kind} {xs : List α}
    (hk : k ≠ .cdouble) (hg : Good P s n a k xs) (cs : List α) {p : Nat} (hp : p ≤ xs.length) (hn' : xs.length + cs.length + 2 ≤ 2 ^ 30) :
    ∃ s', run ((Op.insertStr cs p).stmt n k) s = .ok () s' ∧ Good P s' n a k ((Op.insertStr cs p).list k xs) ∧ Only s s' a := by
  obtain ⟨⟨o, h, hh, hko, hr⟩, hs⟩ := hg
  have hl : (Op.list k (.insertStr cs p) xs).length = xs.length + cs.length := by
    simp only [Op.list, List.length_append, List.length_take, List.length_drop, List.length_map]
    omega
  obtain ⟨ob, hb1, hb2, hb3, hb4⟩ := newStr_run cs s (by omega)
  have hal := lt_of_alive h
  have h' : ({ mem := s.mem ++ [some ob], stk := s.stk } : State α).mem[a]? = some (some o) := by
    show (s.mem ++ [some ob])[a]? = _
    rw [List.getElem?_append_left hal]
    exact h
  obtain ⟨o', h1, h2, h3, h4⟩ := insert_arr (s := { mem := s.mem ++ [some ob], stk := s.stk }) (fun x => hid _ x (by rw [hko]; exact hk)) hs h' hh rfl
    (show a ≠ s.mem.length by omega) (by simp) hb2 rfl hp hr (by omega) (by omega)
  have hfin : ({ mem := (upd { mem := s.mem ++ [some ob], stk := s.stk } a o').mem.set s.mem.length (dec ob), stk := s.stk } : State α) =
      { mem := (upd s a o').mem ++ [none], stk := s.stk } := by
    rw [upd_append hal]
    simp [upd, dec, hb4]
  refine ⟨_, (bind_eq hb1).trans (h1.trans (congrArg _ hfin)), ⟨⟨o', ?_, ?_, h3.trans hko, by rw [h4]; exact hr⟩, hs⟩,
    only_append _⟩
  · show ((upd s a o').mem ++ [none])[a]? = _
    rw [List.getElem?_append_left (by simpa [upd] using hal)]
    exact upd_get h o'
  · rw [hl]
    rw [hko, hb3] at h2
    exact h2

theorem step_ok [Env α] (hid : ConvSame α) {P : Prop} {s : State α} {n : Nat} {a : Addr} {k : Kind} {xs : List α}
    (hk : k ≠ .cdouble) (hg : Good P s n a k xs) (op : Op α) (hv : op.Valid xs) (hn : xs.length + 2 ≤ 2 ^ 30)
    (hn' : (op.list k xs).length + 2 ≤ 2 ^ 30) :
    ∃ s', run (op.stmt n k) s = .ok () s' ∧ Good P s' n a k (op.list k xs) ∧ Only s s' a := by
  have hg0 := hg
  obtain ⟨⟨o, h, hh, hko, hr⟩, hs⟩ := hg
  have hkn : Scalar k := ⟨by rw [← hko]; exact hh.num, hk⟩
  cases op with
  | push j x =>
    obtain ⟨o', h1, h2, h3, h4⟩ := push_num j x hs h hh rfl hn hr
    refine ⟨_, ?_, good_upd hs h ?_ (h3.trans hko) (by rw [h4]; exact hr), only_upd _ _ _⟩
    · exact (bind_eq (newNum_scalar hv x s)).trans h1
    · rw [hko] at h2
      simpa [Op.list] using h2
  | pop => exact run_pop hg0 hv (by omega)
  | shift =>
    obtain ⟨y, ys, rfl⟩ := List.exists_cons_of_ne_nil hv
    obtain ⟨o', h1, h2, h3, h4⟩ := shift_run hs h hh (by simp at hn; omega) (by rw [hko]; exact hk)
    refine ⟨_, ?_, good_upd hs h h2 (h3.trans hko) (by rw [h4]; exact hr), only_upd _ _ _⟩
    show (shift (.slot n) >>= fun v => detachV v) s = _
    exact (bind_eq h1).trans (detach_none rfl _)
  | unshift x =>
    obtain ⟨o', h1, h2, h3, h4⟩ := unshift_num x hs h hh hn
    refine ⟨_, ?_, good_upd hs h (by simpa [Op.list] using h2) (h3.trans hko) (by rw [h4]; exact hr),
      only_upd _ _ _⟩
    rw [hko] at h1
    exact (bind_eq (newNum_scalar hkn x s)).trans h1
  | insert j x p => exact step_insert hid hk hg0 hv.1 hv.2 hn
  | insertStr cs p =>
    have hp : p ≤ xs.length := hv
    refine step_insertStr hid hk hg0 cs hp ?_
    simp only [Op.list, List.length_append, List.length_take, List.length_drop, List.length_map] at hn'
    omega
  | set i j x =>
    obtain ⟨o', h1, h2, h3, h4⟩ := setIndex_num (i := i) j x hs h hh (by have := hv.2; omega) hr
    have hmax : max xs.length (i + 1) = xs.length := by have := hv.2; omega
    rw [hmax] at h2
    have h5 := h2.set hv.2 (Env.conv j k x)
    refine ⟨_, ?_, good_upd hs h (o' := { o' with cells := o'.cells.set i (.raw (some (Env.conv j k x))) })
      ?_ (h3.trans hko) (by rw [← h4] at hr; exact hr), only_upd _ _ _⟩
    · rw [hko] at h1
      exact (bind_eq (newNum_scalar hv.1 x s)).trans h1
    · simpa [Op.list] using h5
  | remove i =>
    obtain ⟨o', h1, h2, h3, -⟩ := remove_run (fun x => hid _ x (by rw [hko]; exact hk)) hs h hh rfl hv hr (by omega)
    replace h2 := h2.any (Q := P) (fun _ => trivial)
    refine ⟨upd s a { o' with rc := o.rc }, ?_, good_upd hs h ?_ (h3.trans hko) hr, only_upd _ _ _⟩
    · show (remove (.slot n) i >>= fun v => detachV v) s = _
      refine (bind_eq h1).trans ?_
      refine (detach_upd (v := .ref a i) rfl h (by simp; omega)).trans ?_
      rfl
    · have hl : (Op.list k (.remove i : Op α) xs).length = xs.length - 1 := by
        simp only [Op.list]
        rw [List.length_eraseIdx, if_pos (show i < xs.length from hv)]
      rw [hl]
      exact h2.rc _
  | truncate m =>
    have hm : m ≤ xs.length := hv
    obtain ⟨o', h1, h2, h3, h4, -⟩ := resize_run (m := m) hs h hh (by omega)
    replace h2 := h2.any (Q := P) (fun _ => trivial)
    refine ⟨_, h1, good_upd hs h ?_ (h3.trans hko) (by rw [h4]; exact hr), only_upd _ _ _⟩
    have hl : (Op.list k (.truncate m : Op α) xs).length = m := by simp [Op.list]; omega
    rw [hl]
    exact h2
  | presize m =>
    obtain ⟨-, o', h1, h2, h3, h4, -⟩ := presize_run (m := m) hs h hh rfl (by omega) (by have := hv.2; omega)
    have hp : presized o.kind m xs = xs := by
      unfold presized
      rw [List.set_eq_of_length_le hv.1, ite_self]
    rw [hp] at h2
    exact ⟨_, h1, good_upd hs h (h2.any (Q := P) (fun _ => trivial)) (h3.trans hko) (by rw [h4]; exact hr), only_upd _ _ _⟩
  | append ys =>
    simp only [Op.list, List.length_append] at hn'
    obtain ⟨o', h1, h2, h3, h4⟩ := append_run ys hs h hh rfl (by omega)
    rw [hko] at h1
    refine ⟨_, h1, good_upd hs h ?_ (h3.trans hko) (by rw [h4]; exact hr), only_upd _ _ _⟩
    rw [show (Op.list k (.append ys) xs).length = xs.length + ys.length by simp [Op.list]]
    exact h2.any (Q := P) (fun _ => trivial)
  | appendVar j x =>
    have he := appendVar_eq (newNum_scalar hv x s) hs h
    rw [hh.size] at he
    have := step_insert hid hk hg0 hv (x := x) (Nat.le_refl xs.length) hn
    simp only [Op.list, Op.stmt, List.take_length, List.drop_length, List.append_nil] at this ⊢
    rwa [he]
  | appendStr cs =>
    have hn'' := hn'
    simp only [Op.list, List.length_append, List.length_map] at hn''
    obtain ⟨ob, hb1, -⟩ := newStr_run cs s (by omega)
    have hal := lt_of_alive h
    have h' : ({ mem := s.mem ++ [some ob], stk := s.stk } : State α).mem[a]? = some (some o) := by
      show (s.mem ++ [some ob])[a]? = _
      rw [List.getElem?_append_left hal]
      exact h
    have he := appendVar_eq hb1 hs h'
    rw [hh.size] at he
    have := step_insertStr hid hk hg0 cs (Nat.le_refl xs.length) (by omega)
    simp only [Op.list, Op.stmt, List.take_length, List.drop_length, List.append_nil] at this ⊢
    rwa [he]

theorem steps_ok [Env α] (hid : ConvSame α) {P : Prop} {n : Nat} {a : Addr} {k : Kind} (hk : k ≠ .cdouble)
    (ops : List (Op α)) : ∀ (s : State α) (xs : List α), Good P s n a k xs → ValidOps k ops xs →
    ∃ s', Runs (ops.map (Op.stmt n k)) s s' ∧ Good P s' n a k (listOps k ops xs) ∧ Only s s' a := by
  induction ops with
  | nil => intro s xs hg _; exact ⟨s, rfl, hg, .refl _ _⟩
  | cons op ops ih =>
    intro s xs hg hv
    have hf : Fits (op.list k xs) := by
      have := hv.2.2
      revert this
      cases ops with
      | nil => exact fun h => h
      | cons p ps => exact fun h => h.1
    obtain ⟨s1, h1, h2, h3⟩ := step_ok hid hk hg op hv.2.1 hv.1 hf
    obtain ⟨s2, h4, h5, h6⟩ := ih s1 _ h2 hv.2.2
    exact ⟨s2, ⟨s1, h1, h4⟩, h5, h3.trans h6⟩

/-- What `Contents` says about a state that can be reached. -/
theorem good_of_contents [Env α] {s : State α} (hr : Reach s) {n : Nat} {k : Kind} {xs : List α} (hk : Number k)
    (h : Contents s n k xs) : ∃ a, Good False s n a k xs := by
  obtain ⟨own, hi⟩ := reach_inv hr
  obtain ⟨a, o, hs, ho, h1, h2, h3⟩ := h
  refine ⟨a, ⟨o, ho, ⟨by rw [h1]; exact hk, h2, Nat.le_refl _, h3, ?_, ?_, fun h => h.elim⟩, h1, InvM.live hi a o ho⟩, hs⟩
  · by_contra hlt
    have hlt' : o.cells.length < xs.length := by omega
    have := h3 o.cells.length _ (List.getElem?_eq_getElem hlt')
    simp at this
  · intro c hc
    have h4 := InvM.typed hi a o ho c hc
    rw [h1] at h4
    have h5 := hk.1
    have h6 := hk.2
    revert h4
    cases c with
    | raw y => intro _; exact ⟨y, rfl⟩
    | var v => intro h4; exact absurd h4 h5
    | pair j v => intro h4; exact absurd h4 h6

theorem Good.contents [Env α] {P : Prop} {s : State α} {n : Nat} {a : Addr} {k : Kind} {xs : List α}
    (h : Good P s n a k xs) : Contents s n k xs := by
  obtain ⟨⟨o, ho, hh, hk, -⟩, hs⟩ := h
  exact ⟨a, o, hs, ho, hk, hh.size, hh.elem⟩

theorem Only.onlyArray {s s' : State α} {n : Nat} {a : Addr} (h : Only s s' a) (hs : s.stk[n]? = some (.arr a)) :
    OnlyArray s s' n := by
  refine ⟨h.1, fun a' b ha hb hl => h.2.2 b ?_ hl⟩
  rw [hs] at ha
  cases ha
  exact hb

theorem Good.terminated [Env α] {s : State α} {n : Nat} {a : Addr} {xs : List α}
    (h : Good True s n a .char xs) : Terminated s n := by
  obtain ⟨⟨o, ho, hh, hk, -⟩, hs⟩ := h
  exact ⟨a, o, hs, ho, hk, by rw [hh.size]; exact hh.nul trivial hk⟩

theorem good_of_terminated [Env α] {s : State α} {n : Nat} {a : Addr} {xs : List α} (h : Good False s n a .char xs)
    (ht : Terminated s n) : Good True s n a .char xs := by
  obtain ⟨⟨o, ho, hh, hk, hr⟩, hs⟩ := h
  obtain ⟨a', o', hs', ho', -, h1⟩ := ht
  rw [hs] at hs'
  cases hs'
  rw [ho] at ho'
  cases ho'
  exact ⟨⟨o, ho, ⟨hh.num, hh.size, hh.le, hh.elem, hh.cap, hh.raw, fun _ _ => by rw [← hh.size]; exact h1⟩, hk, hr⟩, hs⟩

theorem withVar_run' {v w : V α} {f : Loc → M α β} {s s2 : State α} {b : β} {mem1 : List (Option (Obj α))}
    {stk1 : List (V α)} (hf : f (.slot s.stk.length) { s with stk := s.stk ++ [v] } = .ok b ⟨mem1, stk1 ++ [w]⟩)
    (hl : stk1.length = s.stk.length)
    (hd : detachV w { mem := mem1, stk := stk1 } = .ok () s2) : withVar v f s = .ok b s2 := by
  unfold withVar
  simp only [hf]
  simp [← hl, hd]

/-- Storing a reference to a number in a variable that holds no array stores the number. -/
theorem assign_value [Env α] {m : Nat} {a : Addr} {i : Nat} {s : State α} {o : Obj α} {t : V α} {x : α}
    (hm : s.stk[m]? = some t) (ht : t.ptr = none) (h : s.mem[a]? = some (some o)) (hk : Scalar o.kind)
    (hx : o.cells[i]? = some (.raw (some x))) (hr : 2 ≤ o.rc) :
    assign (.slot m) (.ref a i) s =
      .ok () { upd s a { o with rc := o.rc - 1 } with stk := s.stk.set m (.num o.kind x) } := by
  have hlm : m < s.stk.length := (List.getElem?_eq_some_iff.1 hm).1
  have hplain : assign (.slot m) (.ref a i) s = assignPlain (.slot m) (.ref a i) s := by
    unfold assign
    rw [bind_eq (readSlot hm)]
    cases t <;> first | rfl | cases ht
  rw [hplain]
  let s1 : State α := { mem := s.mem, stk := s.stk ++ [.ref a i] }
  have hm1 : s1.stk[m]? = some t := slot_append hm
  have hlm1 : m < s1.stk.length := (List.getElem?_eq_some_iff.1 hm1).1
  have h1 : s1.mem[a]? = some (some o) := h
  let s2 : State α := { upd s1 a { o with rc := o.rc + 1 } with stk := s1.stk.set m (.ref a i) }
  have hshare : share (.slot m) (.ref a i) s1 = .ok () s2 := by
    unfold share
    rw [bind_eq (readSlot hm1), bind_eq (attach_run (v := .ref a i) rfl h1)]
    have hw : writeLoc (.slot m) (.ref a i) (upd s1 a { o with rc := o.rc + 1 }) = .ok () s2 := if_pos hlm1
    rw [bind_eq hw]
    cases t <;> first | rfl | cases ht
  have hm2 : s2.stk[m]? = some (.ref a i) := List.getElem?_set_self hlm1
  have h2 : s2.mem[a]? = some (some { o with rc := o.rc + 1 }) := upd_get h1 _
  let s3 : State α := { upd s1 a { o with rc := o.rc + 1 } with stk := s1.stk.set m (.num o.kind x) }
  let s4 : State α := { upd s1 a o with stk := s1.stk.set m (.num o.kind x) }
  have hderef : dereference (.slot m) s2 = .ok (.slot m) s4 := by
    unfold dereference
    rw [bind_eq (readSlot hm2)]
    simp only
    rw [bind_eq (derefLoc_num h2 hk.1)]
    simp only
    rw [bind_eq (obj_eq h2), bind_eq (rawAt_run h2 hx)]
    rw [if_neg hk.2]
    have hw : writeLoc (.slot m) (.num o.kind x) s2 = .ok () s3 := by
      refine (if_pos (by simpa [s2] using hlm1)).trans ?_
      simp [s2, s3, List.set_set]
    rw [bind_eq hw]
    have hd : detachV (.arr a) s3 = .ok () s4 := by
      have := detach_run (v := (.arr a : V α)) (s := s3) rfl (show s3.mem[a]? = some (some { o with rc := o.rc + 1 }) from h2)
        (by simp; omega)
      rw [this]
      simp [s3, s4, upd, List.set_set]
    rw [bind_eq hd]
    rfl
  unfold assignPlain
  have h4 : s4 = ⟨(upd s a o).mem, s.stk.set m (.num o.kind x) ++ [.ref a i]⟩ := by
    simp [s4, s1, upd, List.set_append_left, hlm]
  refine withVar_run' (w := .ref a i) (mem1 := (upd s a o).mem) (stk1 := s.stk.set m (.num o.kind x)) ?_ (by simp) ?_
  · rw [← h4]
    show (readLoc (.slot m) >>= _) s1 = _
    rw [bind_eq (readSlot hm1)]
    have : (share (.slot m) (.ref a i) >>= fun _ => dereference (.slot m) >>= fun _ => pure ()) s1 = .ok () s4 := by
      rw [bind_eq hshare, bind_eq hderef]
      rfl
    cases t <;> first | exact this | cases ht
  · rw [upd_self h]
    exact detach_run (v := (.ref a i : V α)) (s := ⟨s.mem, s.stk.set m (.num o.kind x)⟩) rfl h hr

end Libube.Mem

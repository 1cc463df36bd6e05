import Verif.Model.Curl
import Verif.Lemmas.MemArray

/-! # Lemmas about downloads -/

namespace Libube.Curl

open Mem

theorem dec_rc (o : Obj α) (h : 1 ≤ o.rc) : dec { o with rc := o.rc + 1 } = some o := by
  unfold dec
  rw [if_neg (by simp; omega)]
  rfl

/-- Appending the only var that holds a string. -/
theorem append_run [Env α] {k : Nat} {a b : Addr} {n m : Nat} {s : State α} {o ob : Obj α}
    {xs ys : List α} (hid : ∀ x : α, Env.conv o.kind o.kind x = x) (hk : s.stk[k]? = some (.arr a)) (h : s.mem[a]? = some (some o)) (hh : Has P o n xs)
    (hx : xs.length = n) (hab : a ≠ b) (hb : s.mem[b]? = some (some ob)) (hy : Has Q ob m ys) (hm : ys.length = m)
    (hr : 1 ≤ o.rc) (hrb : 1 ≤ ob.rc) (hn : n + m + 1 ≤ 2 ^ 30) :
    ∃ o' : Obj α, append (.slot k) (.arr b) s = .ok () { mem := (upd s a o').mem.set b (dec ob), stk := s.stk } ∧
      Has P o' (n + m) (xs ++ ys.map (Env.conv ob.kind o.kind)) ∧ o'.kind = o.kind ∧ o'.rc = o.rc := by
  let s1 : State α := { mem := s.mem, stk := s.stk ++ [.arr b] }
  let s2 : State α := upd s1 b { ob with rc := ob.rc + 1 }
  have hk2 : s2.stk[k]? = some (.arr a) := slot_append hk
  have h2 : s2.mem[a]? = some (some o) := (upd_other (s := s1) (Ne.symm hab) _).trans h
  have hb2 : s2.mem[b]? = some (some { ob with rc := ob.rc + 1 }) := upd_get (s := s1) hb _
  obtain ⟨o', hi, hh', hk', hrc'⟩ := insert_arr hid hk2 h2 hh hx hab hb2 (hy.rc (ob.rc + 1)) hm (Nat.le_refl n) hr
    (by simp) hn
  have hfin : ({ mem := (upd s2 a o').mem.set b (dec { ob with rc := ob.rc + 1 }), stk := s2.stk } : State α) =
      upd s1 a o' := by
    rw [dec_rc ob hrb]
    show upd (upd (upd s1 b _) a o') b ob = _
    rw [upd_comm hab.symm, upd_upd]
    exact upd_self ((upd_other hab _).trans hb)
  rw [hfin] at hi
  refine ⟨o', ?_, ?_, hk', hrc'⟩
  · refine withVar_run (w := .arr b) (s1 := upd s1 a o') ?_ rfl
      (detach_dec (v := V.arr b) (s := upd s a o') rfl ((upd_other hab _).trans hb) hrb hy.ptrs)
    show _ = _
    rw [bind_eq (readTemp s.mem s.stk (.arr b)), bind_eq (copyV_run (s := s1) (v := .arr b) rfl hb)]
    refine (bind_eq (readSlot (s := s2) hk2)).trans ?_
    refine (bind_eq (sizeV_arr h2)).trans ?_
    rw [hh.size]
    exact hi
  · simpa [List.take_of_length_le (Nat.le_of_eq hx), List.drop_of_length_le (Nat.le_of_eq hx)] using hh'

/-- What `mData` looks like between two calls: the string is the first thing allocated, the others are freed. -/
theorem write_run [Env α] (hid : MemSpec.ConvSame α) {k : Nat} {a : Addr} {s : State α} {o : Obj α} {xs c : List α}
    (hk : s.stk[k]? = some (.arr a)) (h : s.mem[a]? = some (some o)) (hc : o.kind = .char) (hh : Has True o xs.length xs)
    (hr : o.rc = 1) (hn : xs.length + c.length + 1 ≤ 2 ^ 30) :
    ∃ o' : Obj α, writeCallback (.slot k) c s = .ok c.length { mem := (upd s a o').mem ++ [none], stk := s.stk } ∧
      o'.kind = .char ∧ Has True o' (xs ++ c).length (xs ++ c) ∧ o'.rc = 1 := by
  obtain ⟨ob, h1, h2, h3, h4⟩ := newStr_run c s (by omega)
  have h1 : newStr c s = _ := h1
  have hlt : a < s.mem.length := lt_of_alive h
  have hab : a ≠ s.mem.length := Nat.ne_of_lt hlt
  let s1 : State α := { mem := s.mem ++ [some ob], stk := s.stk ++ [.arr s.mem.length] }
  let s2 : State α := upd s1 s.mem.length { ob with rc := ob.rc + 1 }
  have hb1 : s1.mem[s.mem.length]? = some (some ob) := by simp [s1]
  have hk2 : s2.stk[k]? = some (.arr a) := slot_append hk
  have ha1 : s1.mem[a]? = some (some o) := (List.getElem?_append_left hlt).trans h
  have h2' : s2.mem[a]? = some (some o) := (upd_other (s := s1) (Ne.symm hab) _).trans ha1
  have hb2 : s2.mem[s.mem.length]? = some (some { ob with rc := ob.rc + 1 }) := upd_get (s := s1) hb1 _
  obtain ⟨o', hi, hh', hk', hrc'⟩ := append_run (fun x => hid _ x (by rw [hc]; decide)) hk2 h2' hh rfl hab hb2 (h2.rc (ob.rc + 1)) rfl (by omega) (by simp)
    hn
  have hmap : c.map (Env.conv (Kind.char) Kind.char) = c := by
    rw [List.map_congr_left (g := id) (fun x _ => hid _ x (by decide))]
    simp
  simp only [h3, hc, hmap] at hh'
  have hfin : ({ mem := (upd s2 a o').mem.set s.mem.length (dec { ob with rc := ob.rc + 1 }), stk := s2.stk } : State α) =
      { mem := (upd s a o').mem ++ [some ob], stk := s.stk ++ [.arr s.mem.length] } := by
    rw [dec_rc ob (by omega)]
    show upd (upd (upd s1 _ _) a o') s.mem.length ob = _
    rw [upd_comm hab.symm, upd_upd, upd_self ((upd_other hab _).trans hb1)]
    exact upd_append hlt o' (some ob)
  rw [hfin] at hi
  refine ⟨o', ?_, hk'.trans hc, by simpa using hh', hrc'.trans hr⟩
  refine (bind_eq h1).trans ?_
  refine withVar_run (w := .arr s.mem.length) (s1 := { mem := (upd s a o').mem ++ [some ob], stk := s.stk ++ [.arr s.mem.length] })
    ?_ rfl ?_
  · refine (bind_eq (readTemp (s.mem ++ [some ob]) s.stk (.arr s.mem.length))).trans ?_
    refine (bind_eq (copyV_run (s := s1) (v := .arr s.mem.length) rfl hb1)).trans ?_
    exact (bind_eq hi).trans rfl
  · have := detach_last (mem := (upd s a o').mem) (stk := s.stk) (o := ob) h4 h2.ptrs
    simpa [upd] using this

theorem feed_run [Env α] (hid : MemSpec.ConvSame α) {k : Nat} {a : Addr} : ∀ (cs : List (List α)) {s : State α} {o : Obj α} {xs : List α},
    s.stk[k]? = some (.arr a) → s.mem[a]? = some (some o) → o.kind = .char → Has True o xs.length xs →
    o.rc = 1 → (xs ++ cs.flatten).length + 1 ≤ 2 ^ 30 →
    ∃ o' : Obj α, feed (.slot k) cs s = .ok () { mem := (upd s a o').mem ++ List.replicate cs.length none, stk := s.stk } ∧
      o'.kind = .char ∧ Has True o' (xs ++ cs.flatten).length (xs ++ cs.flatten) ∧ o'.rc = 1
  | [], s, o, xs, _, h, hc, hh, hr, _ => by
    refine ⟨o, ?_, hc, by simpa using hh, hr⟩
    rw [upd_self h]
    simp [feed]
    rfl
  | c :: cs, s, o, xs, hk, h, hc, hh, hr, hn => by
    have hn' := hn
    simp only [List.flatten_cons, List.length_append] at hn'
    obtain ⟨o1, h1, h2, h3, h4⟩ := write_run hid hk h hc hh hr (c := c) (by omega)
    have hlt : a < s.mem.length := lt_of_alive h
    obtain ⟨o2, h5, h6, h7, h8⟩ := feed_run hid (k := k) (a := a) cs (s := { mem := (upd s a o1).mem ++ [none], stk := s.stk })
      (o := o1) (xs := xs ++ c) hk
      ((List.getElem?_append_left (lt_of_alive (upd_get h o1))).trans (upd_get h o1)) h2 h3 h4 (by simpa only [List.length_append, Nat.add_assoc] using hn')
    refine ⟨o2, ?_, h6, by simpa using h7, h8⟩
    refine (bind_eq h1).trans ?_
    simp only [if_true]
    rw [h5]
    congr 2
    simp [upd, hlt, List.set_append_left, List.replicate_succ]

/-- `mData = ""` and the calls that follow. -/
theorem data_run [Env α] (hid : MemSpec.ConvSame α) (cs : List (List α)) (s : State α) (hn : cs.flatten.length + 1 ≤ 2 ^ 30) :
    ∃ o : Obj α, (∀ (β : Type) (g : Unit → M α β), (newStr [] >>= fun v => assign (.slot s.stk.length) v >>= fun _ =>
        feed (.slot s.stk.length) cs >>= g) { s with stk := s.stk ++ [.nil] } =
          g () { mem := s.mem ++ [some o] ++ List.replicate cs.length none, stk := s.stk ++ [.arr s.mem.length] }) ∧
      o.kind = .char ∧ Has True o cs.flatten.length cs.flatten ∧ o.rc = 1 := by
  obtain ⟨ob, h1, h2, h3, h4⟩ := newStr_run ([] : List α) { s with stk := s.stk ++ [.nil] } (by simp)
  have h1 : newStr [] _ = _ := h1
  have ha : assign (.slot s.stk.length) (.arr s.mem.length) { mem := s.mem ++ [some ob], stk := s.stk ++ [.nil] } =
      .ok () { mem := s.mem ++ [some ob], stk := s.stk ++ [.arr s.mem.length] } := by
    unfold assign
    rw [bind_eq (readTemp _ _ _)]
    simp only
    unfold assignPlain
    refine withVar_run' (w := .arr s.mem.length) (mem1 := s.mem ++ [some { ob with rc := 2 }]) (stk1 := s.stk ++ [.arr s.mem.length])
      ?_ (by simp) ?_
    · let t : State α := { mem := s.mem ++ [some ob], stk := s.stk ++ [.nil] ++ [.arr s.mem.length] }
      have hr : readLoc (.slot s.stk.length) t = .ok .nil t := readSlot (by simp [t])
      refine (bind_eq hr).trans ?_
      have hat : attachV (V.arr s.mem.length) t = .ok () (upd t s.mem.length { ob with rc := ob.rc + 1 }) :=
        attach_run rfl (by simp [t])
      have hsh : share (.slot s.stk.length) (.arr s.mem.length) t =
          .ok () { mem := s.mem ++ [some { ob with rc := 2 }], stk := s.stk ++ [.arr s.mem.length] ++ [.arr s.mem.length] } := by
        unfold share
        rw [bind_eq hr, bind_eq hat]
        show (writeLoc _ _ >>= fun _ => pure ()) _ = _
        rw [bind_pure_unit]
        simp [writeLoc, upd, t, h4]
      refine (bind_eq hsh).trans ?_
      unfold dereference
      refine (bind_eq (b := Loc.slot s.stk.length) (s1 := { mem := s.mem ++ [some { ob with rc := 2 }], stk := s.stk ++ [.arr s.mem.length] ++ [.arr s.mem.length] }) ?_).trans ?_
      · exact (bind_eq (readSlot (v := .arr s.mem.length) (by simp))).trans rfl
      · rfl
    · have := detach_run (v := V.arr s.mem.length) (a := s.mem.length) (o := { ob with rc := 2 })
        (s := { mem := s.mem ++ [some { ob with rc := 2 }], stk := s.stk ++ [.arr s.mem.length] }) rfl (by simp) (by simp)
      rw [this]
      simp only [upd, List.set_append_right _ _ (Nat.le_refl _), Nat.sub_self, List.set_cons_zero]
      cases ob
      cases h4
      rfl
  obtain ⟨o, h5, h6, h7, h8⟩ := feed_run hid (k := s.stk.length) (a := s.mem.length) cs
    (s := { mem := s.mem ++ [some ob], stk := s.stk ++ [.arr s.mem.length] }) (o := ob) (xs := []) (by simp) (by simp) h3 h2 h4
    (by simpa using hn)
  refine ⟨o, ?_, h6, by simpa using h7, h8⟩
  intro β g
  rw [bind_eq h1]
  refine (bind_eq ha).trans ?_
  rw [bind_eq h5]
  simp [upd]

end Libube.Curl

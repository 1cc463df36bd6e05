import Verif.Lemmas.Ini
import Verif.Model.Option
import Verif.Spec.Option

/-! # Lemmas about command lines -/

namespace Libube.Option

open Libube Libube.CString Libube.OrderSpec Libube.OptionSpec
open Libube.Order (KeyClass WF code isKey_class mapSet_spec)
open Libube.Maps (step mapRef_get)

/-! ### the map of options -/

/-- character keys -/
def IsChr (v : Val) : Prop := ∃ c, v = .char c

theorem chr_class (n : Nat) : KeyClass (n + 2) IsChr code where
  lt_ok a b := by
    rintro ⟨s, rfl⟩ ⟨t, rfl⟩; exact (isKey_class n).lt_ok _ _ trivial trivial
  neq_ok a b := by
    rintro ⟨s, rfl⟩ ⟨t, rfl⟩; exact (isKey_class n).neq_ok _ _ trivial trivial
  defined a := by rintro ⟨s, rfl⟩; rfl

theorem code_char (c d : UInt8) : code (.char c) = code (.char d) ↔ c = d := by
  constructor
  · intro h
    have := (Order.sameKey_iff (a := .char c) (b := .char d) trivial trivial).2 h
    exact this
  · rintro rfl; rfl

/-- the map holds these values -/
structure Inv (m : List (Val × Val)) (f : UInt8 → Option Val) : Prop where
  wf : WF IsChr code m
  get : ∀ c, Order.get code m (code (.char c)) = f c

theorem Inv.empty : Inv [] (fun _ => none) := ⟨WF.nil, fun _ => rfl⟩

/-- updating -/
def upd (f : UInt8 → Option Val) (c : UInt8) (v : Val) : UInt8 → Option Val :=
  fun d => if d = c then some v else f d

theorem set_inv (n : Nat) {m f} (h : Inv m f) (c : UInt8) (v : Val) :
    ∃ m', mapSet (n + 2) m (.char c) v = .ok m' ∧ Inv m' (upd f c v) := by
  obtain ⟨m', e, w, g, -⟩ := mapSet_spec (chr_class n) m (.char c) v ⟨c, rfl⟩ h.wf
  refine ⟨m', e, w, fun d => ?_⟩
  rw [g, h.get]
  simp only [code_char, upd]

theorem Inv.mem {m f} (h : Inv m f) (c : UInt8) (v : Val) : (Val.char c, v) ∈ m ↔ f c = some v := by
  constructor
  · intro hm
    rw [← h.get]; exact Ini.get_of_mem h.wf hm
  · intro hf
    rw [← h.get] at hf
    obtain ⟨p, hp, hc, hp2⟩ := Ini.mem_of_get hf
    obtain ⟨d, hd⟩ := h.wf.keys p hp
    rw [hd, code_char] at hc
    subst hc
    obtain ⟨p1, p2⟩ := p
    simp only at hd hp2
    subst hd; subst hp2
    exact hp

theorem touch_inv (n : Nat) {m f} (h : Inv m f) (c : UInt8) {v} (hv : f c = some v) :
    ∃ m' i p, mapRef (n + 2) m (.char c) = .ok (m', some i) ∧ m'[i]? = some p ∧ p.2 = v ∧ Inv m' f := by
  obtain ⟨m1, i, p, e1, w1, e2, e3, e4, g⟩ := mapRef_get (chr_class n) m (.char c) ⟨c, rfl⟩ h.wf
  have hg : ∀ d, Order.get code m1 (code (.char d)) = f d := by
    intro d
    rw [g]
    simp only [step, code_char]
    split
    · rename_i hd
      subst hd
      rw [h.get, hv]
    · exact h.get d
  refine ⟨m1, i, p, e1, e2, ?_, w1, hg⟩
  rw [hg, hv] at e4
  exact (Option.some.inj e4).symm

theorem store_flag (n : Nat) {m f} (h : Inv m f) (c : UInt8) (hv : f c = some .nil) (a : Option Bytes) :
    ∃ m', store (n + 2) m c a = .ok m' ∧ Inv m' (upd f c (.int 1#32)) := by
  obtain ⟨m1, i, p, e1, e2, e3, h1⟩ := touch_inv n h c hv
  obtain ⟨m2, e4, h2⟩ := set_inv n h1 c (.int 1#32)
  refine ⟨m2, ?_, h2⟩
  unfold store
  rw [e1, Outcome.bind_ok]
  simp only [e2, e3, Val.defined, e4, Bool.false_eq_true, if_false]

theorem store_arg (n : Nat) {m f} (h : Inv m f) (c : UInt8) {v} (hv : f c = some v) (hn : v ≠ .nil)
    (a : Bytes) : ∃ m', store (n + 2) m c (some a) = .ok m' ∧ Inv m' (upd f c (.chars a)) := by
  obtain ⟨m1, i, p, e1, e2, e3, h1⟩ := touch_inv n h c hv
  obtain ⟨m2, e4, h2⟩ := set_inv n h1 c (.chars a)
  refine ⟨m2, ?_, h2⟩
  have hd : v.defined = true := by cases v <;> first | rfl | exact absurd rfl hn
  unfold store
  rw [e1, Outcome.bind_ok]
  simp only [e2, e3, hd, if_true, e4]

theorem store_null (n : Nat) {m f} (h : Inv m f) (c : UInt8) {v} (hv : f c = some v) (hn : v ≠ .nil) :
    store (n + 2) m c none = .thrown (.error "optarg is null") := by
  obtain ⟨m1, i, p, e1, e2, e3, h1⟩ := touch_inv n h c hv
  have hd : v.defined = true := by cases v <;> first | rfl | exact absurd rfl hn
  unfold store
  rw [e1, Outcome.bind_ok]
  simp only [e2, e3, hd, if_true]

/-! ### registering -/

theorem letter_ne {c : UInt8} (h : IsLetter c) : c ≠ 58 ∧ c ≠ 45 := by
  constructor <;> rintro rfl <;> revert h <;> decide

/-- the option string -/
def optString (regs : List (UInt8 × Val)) : Bytes :=
  regs.flatMap fun r => r.1 :: (if r.2.defined then [58] else [])

/-- the defaults -/
def defaults (regs : List (UInt8 × Val)) (c : UInt8) : Option Val :=
  (regs.find? fun r => decide (r.1 = c)).map Prod.snd

theorem defaults_mem {regs : List (UInt8 × Val)} (hn : (regs.map Prod.fst).Nodup) {c d}
    (h : (c, d) ∈ regs) : defaults regs c = some d := by
  induction regs with
  | nil => simp at h
  | cons r regs ih =>
    simp only [List.map_cons, List.nodup_cons] at hn
    unfold defaults
    rw [List.find?_cons]
    rcases List.mem_cons.1 h with rfl | h
    · simp
    · have : r.1 ≠ c := by
        rintro rfl
        exact hn.1 (List.mem_map.2 ⟨_, h, rfl⟩)
      simp only [this, decide_false]
      exact ih hn.2 h

theorem mem_defaults {regs : List (UInt8 × Val)} {c d} (h : defaults regs c = some d) : (c, d) ∈ regs := by
  unfold defaults at h
  cases hf : regs.find? fun r => decide (r.1 = c) with
  | none => rw [hf] at h; cases h
  | some r =>
    rw [hf] at h
    have h1 := List.mem_of_find?_eq_some hf
    have h2 := List.find?_some hf
    obtain ⟨r1, r2⟩ := r
    simp only [decide_eq_true_eq, Option.map_some, Option.some.injEq] at h h2
    subst h; subst h2
    exact h1

theorem registerAll_spec (n : Nat) (regs : List (UInt8 × Val)) (hn : (regs.map Prod.fst).Nodup) :
    ∀ o f, Inv o.map f → ∃ o', registerAll (n + 2) o regs = .ok o' ∧
      o'.string = o.string ++ optString regs ∧
      Inv o'.map (fun c => match defaults regs c with | some d => some d | none => f c) := by
  induction regs with
  | nil => intro o f h; exact ⟨o, rfl, by simp [optString], h⟩
  | cons r regs ih =>
    intro o f h
    obtain ⟨c, d⟩ := r
    simp only [List.map_cons, List.nodup_cons] at hn
    obtain ⟨m1, e1, h1⟩ := set_inv n h c d
    obtain ⟨o', e2, e3, h2⟩ := ih hn.2 ⟨o.string ++ c :: (if d.defined then [58] else []), m1⟩ _ h1
    refine ⟨o', ?_, ?_, ?_⟩
    · simp only [registerAll, register, e1, Outcome.bind_ok, e2]
    · rw [e3]; simp [optString]
    · convert h2 using 1
      funext c'
      have hd : defaults ((c, d) :: regs) c' = if c = c' then some d else defaults regs c' := by
        unfold defaults
        rw [List.find?_cons]
        by_cases hc : c = c' <;> simp [hc]
      rw [hd]
      by_cases hc : c = c'
      · subst hc
        have : defaults regs c = none := by
          cases hx : defaults regs c with
          | none => rfl
          | some w => exact (hn.1 (List.mem_map.2 ⟨_, mem_defaults hx, rfl⟩)).elim
        simp only [if_true, this, upd]
      · rw [if_neg hc]
        cases defaults regs c' with
        | some w => rfl
        | none => simp [upd, Ne.symm hc]

theorem known_mem (regs : List (UInt8 × Val)) (hr : Regs regs) {c d} (h : (c, d) ∈ regs) :
    known c (optString regs) = some d.defined := by
  obtain ⟨hl, hn⟩ := hr
  have hc := (letter_ne (hl _ h)).1
  induction regs with
  | nil => simp at h
  | cons r regs ih =>
    obtain ⟨c', d'⟩ := r
    simp only [List.map_cons, List.nodup_cons] at hn
    have hrest : known c (optString regs) = some d.defined ∨ (c, d) = (c', d') := by
      rcases List.mem_cons.1 h with h | h
      · exact .inr h
      · exact .inl (ih h (fun r hr => hl r (List.mem_cons_of_mem _ hr)) hn.2)
    simp only [optString, List.flatMap_cons, List.cons_append, known]
    by_cases he : c' = c
    · subst he
      have hd : d = d' := by
        rcases List.mem_cons.1 h with h | h
        · cases h; rfl
        · exact (hn.1 (List.mem_map.2 ⟨_, h, rfl⟩)).elim
      subst hd
      rw [if_pos rfl]
      cases hdd : d.defined with
      | true => simp
      | false =>
        simp only [Bool.false_eq_true, if_false, List.nil_append, Option.some.injEq, beq_eq_false_iff_ne]
        cases regs with
        | nil => simp
        | cons r regs =>
          simp only [List.flatMap_cons, List.cons_append, List.head?_cons, ne_eq, Option.some.injEq]
          exact (letter_ne (hl r (by simp))).1
    · rw [if_neg he]
      rcases hrest with hrest | hrest
      · cases d'.defined with
        | true =>
          simp only [if_true, List.cons_append, List.nil_append, known]
          rw [if_neg (Ne.symm hc)]
          exact hrest
        | false => simpa [optString] using hrest
      · cases hrest; exact absurd rfl he

theorem known_none (regs : List (UInt8 × Val)) (c : UInt8) (hc : c ≠ 58)
    (h : ∀ d, (c, d) ∉ regs) : known c (optString regs) = none := by
  induction regs with
  | nil => rfl
  | cons r regs ih =>
    obtain ⟨c', d'⟩ := r
    have ih := ih (fun d hd => h d (List.mem_cons_of_mem _ hd))
    have he : c' ≠ c := by rintro rfl; exact h d' (by simp)
    simp only [optString, List.flatMap_cons, List.cons_append, known]
    rw [if_neg he]
    cases d'.defined with
    | true =>
      simp only [if_true, List.cons_append, List.nil_append, known]
      rw [if_neg (Ne.symm hc)]
      exact ih
    | false => simpa [optString] using ih

/-! ### scanning -/

/-- the options of an item in order, with their arguments -/
def events : Item → List (UInt8 × Option Bytes)
  | .operand _ => []
  | .flags f fs => (f :: fs).map fun c => (c, none)
  | .attached fs c a => fs.map (fun c => (c, none)) ++ [(c, some a)]
  | .separate fs c a => fs.map (fun c => (c, none)) ++ [(c, some a)]

/-- storing several -/
def storeAll (n : Nat) : List (Val × Val) → List (UInt8 × Option Bytes) → Outcome (List (Val × Val))
  | m, [] => .ok m
  | m, e :: es => (store n m e.1 e.2).bind fun m => storeAll n m es

theorem storeAll_append (n : Nat) (m : List (Val × Val)) (a b) :
    storeAll n m (a ++ b) = (storeAll n m a).bind fun m => storeAll n m b := by
  induction a generalizing m with
  | nil => rfl
  | cons e a ih =>
    simp only [List.cons_append, storeAll]
    cases store n m e.1 e.2 <;> first | rfl | exact ih _

theorem bind_assoc' {α β γ : Type} (x : Outcome α) (f : α → Outcome β) (g : β → Outcome γ) :
    (x.bind f).bind g = x.bind fun a => (f a).bind g := by
  cases x <;> rfl

theorem letter_not_question {c : UInt8} (h : IsLetter c) : c ≠ 63 := by
  rintro rfl
  revert h
  decide

theorem known_flag {regs : List (UInt8 × Val)} (hr : Regs regs) {c} (h : (c, Val.nil) ∈ regs) :
    (if c = 58 then none else known c (optString regs)) = some false := by
  rw [if_neg (letter_ne (hr.1 _ h)).1, known_mem regs hr h]; rfl

theorem known_arg {regs : List (UInt8 × Val)} (hr : Regs regs) {c d} (hd : d ≠ Val.nil)
    (h : (c, d) ∈ regs) : (if c = 58 then none else known c (optString regs)) = some true := by
  rw [if_neg (letter_ne (hr.1 _ h)).1, known_mem regs hr h]
  cases d <;> first | rfl | exact absurd rfl hd

variable (permute : Bool) (n : Nat) {regs : List (UInt8 × Val)}

/-- inside a group of options: flags followed by anything -/
theorem loop_flags (hr : Regs regs) (fs : List UInt8) (hfs : ∀ c ∈ fs, (c, Val.nil) ∈ regs)
    (cs : Bytes) (fuel : Nat) :
    ∀ m seen rest, parseLoop permute n (optString regs) (fuel + fs.length) m ⟨seen, fs ++ cs, rest⟩ =
      (storeAll n m (fs.map fun c => (c, none))).bind fun m =>
        parseLoop permute n (optString regs) fuel m ⟨seen, cs, rest⟩ := by
  induction fs with
  | nil => intro m seen rest; rfl
  | cons f fs ih =>
    intro m seen rest
    have hk := known_flag hr (hfs f (by simp))
    rw [List.length_cons, ← Nat.add_assoc]
    simp only [parseLoop, List.cons_append, getopt, word, hk, List.map_cons, storeAll]
    rw [if_neg (letter_not_question (hr.1 _ (hfs f (by simp))))]
    cases store n m f none with
    | ok m' =>
      simp only [Outcome.bind_ok]
      exact ih (fun c hc => hfs c (List.mem_cons_of_mem _ hc)) m' seen rest
    | _ => rfl

/-- at an option with argument -/
theorem loop_attached (hr : Regs regs) (c : UInt8) {d} (hd : d ≠ Val.nil) (h : (c, d) ∈ regs)
    (a : Bytes) (ha : a ≠ []) (fuel : Nat) (m seen rest) :
    parseLoop permute n (optString regs) (fuel + 1) m ⟨seen, c :: a, rest⟩ =
      (store n m c (some a)).bind fun m =>
        parseLoop permute n (optString regs) fuel m ⟨seen, [], rest⟩ := by
  have hk := known_arg hr hd h
  obtain ⟨x, xs, rfl⟩ := List.exists_cons_of_ne_nil ha
  simp only [parseLoop, getopt, word, hk]
  rw [if_neg (letter_not_question (hr.1 _ h))]
  rfl

theorem loop_separate (hr : Regs regs) (c : UInt8) {d} (hd : d ≠ Val.nil) (h : (c, d) ∈ regs)
    (a : Bytes) (fuel : Nat) (m seen rest) :
    parseLoop permute n (optString regs) (fuel + 1) m ⟨seen, [c], a :: rest⟩ =
      (store n m c (some a)).bind fun m =>
        parseLoop permute n (optString regs) fuel m ⟨seen, [], rest⟩ := by
  have hk := known_arg hr hd h
  simp only [parseLoop, getopt, word, hk]
  rw [if_neg (letter_not_question (hr.1 _ h))]
  rfl

/-- entering a group of options -/
theorem loop_enter (os : Bytes) (x : UInt8) (xs : Bytes) (hx : x ≠ 45) (fuel : Nat) (m seen rest) :
    parseLoop permute n os fuel m ⟨seen, [], (45 :: x :: xs) :: rest⟩ =
      parseLoop permute n os fuel m ⟨seen, x :: xs, rest⟩ := by
  cases fuel with
  | zero => rfl
  | succ fuel =>
    have hne : (45 :: x :: xs) ≠ [45, 45] := by
      intro h
      simp only [List.cons.injEq, true_and] at h
      exact hx h.1
    simp only [parseLoop, getopt, scan]
    rw [if_neg hne]

theorem loop_operand (os : Bytes) (s : Bytes) (hs : s.head? ≠ some 45 ∨ s = [45]) (fuel : Nat)
    (m seen rest) :
    parseLoop true n os fuel m ⟨seen, [], s :: rest⟩ =
      parseLoop true n os fuel m ⟨seen ++ [s], [], rest⟩ := by
  cases fuel with
  | zero => rfl
  | succ fuel =>
    have : scan true os seen (s :: rest) = scan true os (seen ++ [s]) rest := by
      rcases hs with hs | rfl
      · match s, hs with
        | [], _ => rfl
        | c :: cs, hs =>
          have hc : c ≠ 45 := by simpa using hs
          rw [scan, if_neg (by intro h; simp only [List.cons.injEq] at h; exact hc h.1)]
          · rfl
          · intro x xs h; simp only [List.cons.injEq] at h; exact absurd h.1 hc
      · rfl
    simp only [parseLoop, getopt, this]

/-- an item that is not an operand -/
theorem loop_item (hr : Regs regs) (i : Item) (hv : i.Valid regs) (hi : i.operands = []) (fuel : Nat)
    (m seen rest) :
    parseLoop permute n (optString regs) (fuel + (events i).length) m ⟨seen, [], i.words ++ rest⟩ =
      (storeAll n m (events i)).bind fun m =>
        parseLoop permute n (optString regs) fuel m ⟨seen, [], rest⟩ := by
  have hne : ∀ c d, (c, d) ∈ regs → c ≠ 45 := fun c d h => (letter_ne (hr.1 _ h)).2
  cases i with
  | operand s => simp [Item.operands] at hi
  | flags f fs =>
    simp only [Item.words, List.cons_append, List.nil_append]
    rw [loop_enter permute n _ f fs (hne f _ (hv f (by simp)))]
    have := loop_flags permute n hr (f :: fs) hv [] fuel m seen rest
    simpa [events] using this
  | attached fs c a =>
    obtain ⟨h1, ⟨d, hd, h2⟩, h3⟩ := hv
    simp only [Item.words, List.cons_append, List.nil_append]
    have henter : parseLoop permute n (optString regs) (fuel + (events (.attached fs c a)).length) m
        ⟨seen, [], (45 :: (fs ++ c :: a)) :: rest⟩ =
        parseLoop permute n (optString regs) (fuel + (events (.attached fs c a)).length) m
        ⟨seen, fs ++ c :: a, rest⟩ := by
      cases fs with
      | nil => exact loop_enter permute n _ c a (hne c d h2) _ _ _ _
      | cons f fs => exact loop_enter permute n _ f _ (hne f _ (h1 f (by simp))) _ _ _ _
    rw [henter]
    have hlen : fuel + (events (.attached fs c a)).length = (fuel + 1) + fs.length := by
      simp [events]; omega
    rw [hlen, loop_flags permute n hr fs h1, events, storeAll_append, bind_assoc']
    congr 1
    funext m
    rw [loop_attached permute n hr c hd h2 a h3]
    simp only [storeAll]
    cases store n m c (some a) <;> rfl
  | separate fs c a =>
    obtain ⟨h1, d, hd, h2⟩ := hv
    simp only [Item.words, List.cons_append, List.nil_append]
    have henter : parseLoop permute n (optString regs) (fuel + (events (.separate fs c a)).length) m
        ⟨seen, [], (45 :: (fs ++ [c])) :: a :: rest⟩ =
        parseLoop permute n (optString regs) (fuel + (events (.separate fs c a)).length) m
        ⟨seen, fs ++ [c], a :: rest⟩ := by
      cases fs with
      | nil => exact loop_enter permute n _ c [] (hne c d h2) _ _ _ _
      | cons f fs => exact loop_enter permute n _ f _ (hne f _ (h1 f (by simp))) _ _ _ _
    rw [henter]
    have hlen : fuel + (events (.separate fs c a)).length = (fuel + 1) + fs.length := by
      simp [events]; omega
    rw [hlen, loop_flags permute n hr fs h1, events, storeAll_append, bind_assoc']
    congr 1
    funext m
    rw [loop_separate permute n hr c hd h2 a]
    simp only [storeAll]
    cases store n m c (some a) <;> rfl

/-- items, with permutation -/
theorem loop_items (hr : Regs regs) (is : List Item) (hv : ∀ i ∈ is, i.Valid regs)
    (hp : permute = true ∨ ∀ i ∈ is, i.operands = []) (fuel : Nat) (rest) :
    ∀ m seen,
    parseLoop permute n (optString regs) (fuel + (is.flatMap events).length) m
        ⟨seen, [], is.flatMap Item.words ++ rest⟩ =
      (storeAll n m (is.flatMap events)).bind fun m =>
        parseLoop permute n (optString regs) fuel m ⟨seen ++ is.flatMap Item.operands, [], rest⟩ := by
  induction is with
  | nil => intro m seen; simp [storeAll, Outcome.bind]
  | cons i is ih =>
    intro m seen
    have ih := ih (fun j hj => hv j (List.mem_cons_of_mem _ hj))
      (hp.imp id fun h j hj => h j (List.mem_cons_of_mem _ hj))
    simp only [List.flatMap_cons, List.append_assoc, List.length_append]
    rw [storeAll_append, bind_assoc']
    by_cases hi : i.operands = []
    · have hlen : fuel + ((events i).length + (is.flatMap events).length) =
          (fuel + (is.flatMap events).length) + (events i).length := by omega
      rw [hlen, loop_item permute n hr i (hv i (by simp)) hi]
      congr 1
      funext m
      rw [ih m seen, hi]
      rfl
    · cases i with
      | operand s =>
        have hpt : permute = true := hp.resolve_right fun h => hi (h _ (by simp))
        subst hpt
        simp only [Item.words, events, List.length_nil, Nat.zero_add, List.cons_append, List.nil_append,
          storeAll, Item.operands]
        rw [loop_operand n _ s (hv (.operand s) (by simp)), ih m (seen ++ [s])]
        simp [Outcome.bind]
      | _ => simp [Item.operands] at hi

/-! ### what is stored -/

/-- the arguments given to an option -/
def argsOf (c : UInt8) (es : List (UInt8 × Option Bytes)) : List Bytes :=
  es.filterMap fun e => if e.1 = c then e.2 else none

/-- the options without argument -/
def flagsOf (es : List (UInt8 × Option Bytes)) : List UInt8 :=
  es.filterMap fun e => if e.2 = none then some e.1 else none

/-- the value of an option after these events -/
def valueOf (d : Val) (c : UInt8) (es : List (UInt8 × Option Bytes)) : Val :=
  match d with
  | .nil => if (c, none) ∈ es then .int 1#32 else .nil
  | d => match (argsOf c es).getLast? with
    | some a => .chars a
    | none => d

/-- events fit the registered options -/
def Fits (regs : List (UInt8 × Val)) (e : UInt8 × Option Bytes) : Prop :=
  match e.2 with
  | none => (e.1, Val.nil) ∈ regs
  | some _ => ∃ d, d ≠ Val.nil ∧ (e.1, d) ∈ regs

theorem valueOf_ne {d : Val} (hd : d ≠ .nil) (c es) : valueOf d c es = match (argsOf c es).getLast? with
    | some a => .chars a
    | none => d := by
  cases d <;> first | rfl | exact absurd rfl hd

theorem valueOf_ne_nil {d : Val} (hd : d ≠ .nil) (c es) : valueOf d c es ≠ .nil := by
  rw [valueOf_ne hd]
  split
  · simp
  · exact hd

/-- the values of all options -/
def values (regs : List (UInt8 × Val)) (es : List (UInt8 × Option Bytes)) (c : UInt8) : Option Val :=
  (defaults regs c).map fun d => valueOf d c es

theorem storeAll_spec (hr : Regs regs) (es : List (UInt8 × Option Bytes)) :
    ∀ done m, (∀ e ∈ es, Fits regs e) → (flagsOf (done ++ es)).Nodup → Inv m (values regs done) →
    ∃ m', storeAll (n + 2) m es = .ok m' ∧ Inv m' (values regs (done ++ es)) := by
  induction es with
  | nil => intro done m _ _ h; exact ⟨m, rfl, by simpa using h⟩
  | cons e es ih =>
    intro done m hf hn h
    obtain ⟨c, a⟩ := e
    have hfe := hf (c, a) (by simp)
    have hstep : ∃ m1, store (n + 2) m c a = .ok m1 ∧ Inv m1 (values regs (done ++ [(c, a)])) := by
      cases a with
      | none =>
        have hd := defaults_mem hr.2 hfe
        have hnot : (c, none) ∉ done := by
          intro hm
          have hn1 : c ∈ flagsOf done := List.mem_filterMap.2 ⟨_, hm, by simp⟩
          have hn2 : flagsOf (done ++ (c, none) :: es) = flagsOf done ++ c :: flagsOf es := by
            simp [flagsOf]
          rw [hn2] at hn
          exact (List.nodup_append.1 hn).2.2 c hn1 c (by simp) rfl
        obtain ⟨m1, e1, h1⟩ := store_flag n h c (by simp [values, hd, valueOf, hnot]) none
        refine ⟨m1, e1, ?_⟩
        convert h1 using 1
        funext c'
        simp only [values, upd]
        by_cases hc : c' = c
        · subst hc
          simp [hd, valueOf]
        · rw [if_neg hc]
          cases defaults regs c' with
          | none => rfl
          | some d' =>
            simp only [Option.map_some, Option.some.injEq]
            have ha : argsOf c' (done ++ [(c, none)]) = argsOf c' done := by simp [argsOf]
            cases d' <;> simp [valueOf, ha, hc]
      | some a =>
        obtain ⟨d, hdn, hd⟩ := hfe
        have hd := defaults_mem hr.2 hd
        obtain ⟨m1, e1, h1⟩ := store_arg n h c (v := valueOf d c done) (by simp [values, hd])
          (valueOf_ne_nil hdn c done) a
        refine ⟨m1, e1, ?_⟩
        convert h1 using 1
        funext c'
        simp only [values, upd]
        by_cases hc : c' = c
        · subst hc
          simp only [hd, Option.map_some, if_true, Option.some.injEq]
          rw [valueOf_ne hdn]
          have ha : argsOf c' (done ++ [(c', some a)]) = argsOf c' done ++ [a] := by simp [argsOf]
          rw [ha]; simp
        · rw [if_neg hc]
          cases defaults regs c' with
          | none => rfl
          | some d' =>
            simp only [Option.map_some, Option.some.injEq]
            have ha : argsOf c' (done ++ [(c, some a)]) = argsOf c' done := by
              simp [argsOf, Ne.symm hc]
            cases d' <;> simp [valueOf, ha]
    obtain ⟨m1, e1, h1⟩ := hstep
    obtain ⟨m2, e2, h2⟩ := ih (done ++ [(c, a)]) m1 (fun x hx => hf x (List.mem_cons_of_mem _ hx))
      (by simpa using hn) h1
    refine ⟨m2, ?_, by simpa using h2⟩
    simp only [storeAll, e1]
    exact e2

theorem events_fit (i : Item) (hv : i.Valid regs) : ∀ e ∈ events i, Fits regs e := by
  cases i with
  | operand s => intro e he; simp [events] at he
  | flags f fs =>
    intro e he
    obtain ⟨c, hc, rfl⟩ := List.mem_map.1 he
    exact hv c hc
  | attached fs c a =>
    intro e he
    rcases List.mem_append.1 he with he | he
    · obtain ⟨c, hc, rfl⟩ := List.mem_map.1 he
      exact hv.1 c hc
    · rw [List.mem_singleton.1 he]; exact hv.2.1
  | separate fs c a =>
    intro e he
    rcases List.mem_append.1 he with he | he
    · obtain ⟨c, hc, rfl⟩ := List.mem_map.1 he
      exact hv.1 c hc
    · rw [List.mem_singleton.1 he]; exact hv.2

theorem filterMap_flags (fs : List UInt8) :
    (fs.map fun c => (c, (none : Option Bytes))).filterMap
      (fun e => if e.2 = none then some e.1 else none) = fs := by
  induction fs with
  | nil => rfl
  | cons f fs ih => simp [List.filterMap_cons]

theorem flagsOf_events (i : Item) : flagsOf (events i) = i.given := by
  cases i <;> simp [events, flagsOf, Item.given, List.filterMap_append]

theorem flagsOf_items (is : List Item) : flagsOf (is.flatMap events) = is.flatMap Item.given := by
  induction is with
  | nil => rfl
  | cons i is ih =>
    simp only [List.flatMap_cons]
    rw [← ih, ← flagsOf_events i]
    simp [flagsOf]

theorem mem_given (is : List Item) (c : UInt8) :
    (c, none) ∈ is.flatMap events ↔ ∃ i ∈ is, c ∈ i.given := by
  have h1 : ∀ es : List (UInt8 × Option Bytes), (c, none) ∈ es ↔ c ∈ flagsOf es := by
    intro es
    simp only [flagsOf, List.mem_filterMap]
    constructor
    · intro h; exact ⟨_, h, by simp⟩
    · rintro ⟨⟨c', a⟩, h, he⟩
      split at he
      · rename_i ha
        simp only [Option.some.injEq] at ha he
        subst ha; subst he; exact h
      · cases he
  rw [h1, flagsOf_items]
  simp

theorem argsOf_events (i : Item) (c : UInt8) :
    (∃ a, i.Gives c a ∧ argsOf c (events i) = [a]) ∨ (∀ a, ¬ i.Gives c a) ∧ argsOf c (events i) = [] := by
  have hz : ∀ fs : List UInt8, argsOf c (fs.map fun c => (c, (none : Option Bytes))) = [] := by
    intro fs
    simp [argsOf]
  have happ : ∀ a b, argsOf c (a ++ b) = argsOf c a ++ argsOf c b := by
    intro a b; simp [argsOf]
  cases i with
  | operand s => right; exact ⟨fun _ h => h, rfl⟩
  | flags f fs => right; exact ⟨fun _ h => h, hz _⟩
  | attached fs c' a =>
    simp only [events, happ, hz]
    by_cases hc : c' = c
    · left; exact ⟨a, ⟨hc, rfl⟩, by simp [argsOf, hc]⟩
    · right; exact ⟨fun _ h => hc h.1, by simp [argsOf, hc]⟩
  | separate fs c' a =>
    simp only [events, happ, hz]
    by_cases hc : c' = c
    · left; exact ⟨a, ⟨hc, rfl⟩, by simp [argsOf, hc]⟩
    · right; exact ⟨fun _ h => hc h.1, by simp [argsOf, hc]⟩

theorem last_arg (is : List Item) (c : UInt8) :
    (∃ a, LastArg is c a ∧ (argsOf c (is.flatMap events)).getLast? = some a) ∨
    ((∀ i ∈ is, ∀ a, ¬ i.Gives c a) ∧ (argsOf c (is.flatMap events)).getLast? = none) := by
  induction is using List.reverseRecOn with
  | nil => right; exact ⟨by simp, rfl⟩
  | append_singleton is i ih =>
    have happ : argsOf c ((is ++ [i]).flatMap events) =
        argsOf c (is.flatMap events) ++ argsOf c (events i) := by
      simp [argsOf]
    rw [happ]
    rcases argsOf_events i c with ⟨a, h1, h2⟩ | ⟨h1, h2⟩
    · left
      refine ⟨a, ⟨is, i, [], rfl, h1, by simp⟩, by rw [h2]; simp⟩
    · rw [h2, List.append_nil]
      rcases ih with ⟨a, ⟨p, x, q, rfl, h3, h4⟩, h5⟩ | ⟨h3, h4⟩
      · left
        refine ⟨a, ⟨p, x, q ++ [i], by simp, h3, ?_⟩, h5⟩
        intro j hj
        rcases List.mem_append.1 hj with hj | hj
        · exact h4 j hj
        · rw [List.mem_singleton.1 hj]; exact h1
      · right
        refine ⟨?_, h4⟩
        intro j hj
        rcases List.mem_append.1 hj with hj | hj
        · exact h3 j hj
        · rw [List.mem_singleton.1 hj]; exact h1

theorem value_spec (is : List Item) (c : UInt8) (d : Val) :
    Value is c d (valueOf d c (is.flatMap events)) := by
  by_cases hd : d = .nil
  · subst hd
    simp only [valueOf]
    split
    · rename_i h; exact .set ((mem_given is c).1 h)
    · rename_i h
      refine .unset fun i hi hc => h ((mem_given is c).2 ⟨i, hi, hc⟩)
  · rw [valueOf_ne hd]
    rcases last_arg is c with ⟨a, h1, h2⟩ | ⟨h1, h2⟩
    · rw [h2]; exact .arg d a hd h1
    · rw [h2]; exact .dflt d hd h1

/-- registering and scanning the items -/
theorem parse_items (hr : Regs regs) (is : List Item) (hv : ∀ i ∈ is, i.Valid regs)
    (hp : permute = true ∨ ∀ i ∈ is, i.operands = []) (hn : (is.flatMap Item.given).Nodup) :
    ∃ o m, registerAll (n + 2) .start regs = .ok o ∧ Inv m (values regs (is.flatMap events)) ∧
      ∀ fuel rest, parse permute (n + 2) (fuel + (is.flatMap events).length) o (is.flatMap Item.words ++ rest) =
        parseLoop permute (n + 2) (optString regs) fuel m ⟨is.flatMap Item.operands, [], rest⟩ := by
  obtain ⟨o, e1, e2, h⟩ := registerAll_spec n regs hr.2 .start _ Inv.empty
  have h0 : Inv o.map (values regs []) := by
    convert h using 1
    funext c
    simp only [values]
    cases defaults regs c with
    | none => rfl
    | some d =>
      by_cases hd : d = .nil
      · subst hd; simp [valueOf]
      · simp only [Option.map_some, valueOf_ne hd]; rfl
  obtain ⟨m, e3, h1⟩ := storeAll_spec n hr (is.flatMap events) [] o.map
    (by
      intro e he
      obtain ⟨i, hi, he⟩ := List.mem_flatMap.1 he
      exact events_fit i (hv i hi) e he)
    (by rw [List.nil_append, flagsOf_items]; exact hn) h0
  refine ⟨o, m, e1, by simpa using h1, ?_⟩
  intro fuel rest
  have hs : o.string = optString regs := by rw [e2]; rfl
  rw [parse, hs, loop_items permute (n + 2) hr is hv hp fuel rest, e3]
  rfl

end Libube.Option

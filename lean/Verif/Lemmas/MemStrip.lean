import Verif.Lemmas.MemString
import Verif.Spec.MemString

/-! # Strings that are stripped where they are -/

namespace Libube.Mem

open MemSpec

variable {α β γ : Type}

/-! ## Lists -/

theorem takeWhile_split (p : α → Bool) (xs : List α) : xs.dropWhile p = xs.drop (xs.takeWhile p).length := by
  induction xs with
  | nil => rfl
  | cons x xs ih =>
    cases h : p x with
    | true => simp [h, ih]
    | false => simp [h]

theorem takeWhile_append_stop (p : α → Bool) {xs ys : List α} (h : ∃ x ∈ xs, p x = false) : (xs ++ ys).takeWhile p = xs.takeWhile p := by
  induction xs with
  | nil => simp at h
  | cons x xs ih =>
    cases hx : p x with
    | false => simp [hx]
    | true =>
      simp only [List.cons_append, List.takeWhile_cons, hx, if_true]
      rw [ih]
      obtain ⟨y, hy, hp⟩ := h
      rcases List.mem_cons.1 hy with rfl | hy
      · rw [hx] at hp; cases hp
      · exact ⟨y, hy, hp⟩

theorem of_takeWhile (p : α → Bool) {xs : List α} {x : α} (h : x ∈ xs.takeWhile p) : p x = true := by
  induction xs with
  | nil => simp at h
  | cons y ys ih =>
    rw [List.takeWhile_cons] at h
    cases hy : p y with
    | false => simp [hy] at h
    | true =>
      rw [hy, if_pos rfl] at h
      rcases List.mem_cons.1 h with rfl | h
      · exact hy
      · exact ih h

theorem ink_drop (p : α → Bool) {xs : List α} (h : ∃ x ∈ xs, p x = false) : ∃ x ∈ xs.dropWhile p, p x = false := by
  obtain ⟨x, hx, hp⟩ := h
  rw [← List.takeWhile_append_dropWhile (p := p) (l := xs)] at hx
  rcases List.mem_append.1 hx with hx | hx
  · exact absurd (of_takeWhile p hx) (by simp [hp])
  · exact ⟨x, hx, hp⟩

/-- The sizes `strip` finds. -/
theorem trim_eq (p : α → Bool) {xs : List α} (h : Inked p xs) :
    (xs.takeWhile p).length + (xs.reverse.takeWhile p).length ≤ xs.length ∧
      trim p xs = (xs.drop (xs.takeWhile p).length).take (xs.length - (xs.takeWhile p).length - (xs.reverse.takeWhile p).length) := by
  rcases h with rfl | h
  · simp [trim]
  · have h1 := ink_drop p h
    have h2 : ∃ x ∈ (xs.dropWhile p).reverse, p x = false := by obtain ⟨x, hx, hp⟩ := h1; exact ⟨x, List.mem_reverse.2 hx, hp⟩
    have e1 : xs.reverse.takeWhile p = (xs.dropWhile p).reverse.takeWhile p := by
      have : xs.reverse = (xs.dropWhile p).reverse ++ (xs.takeWhile p).reverse := by rw [← List.reverse_append, List.takeWhile_append_dropWhile]
      rw [this, takeWhile_append_stop p h2]
    have e2 : (xs.takeWhile p).length + (xs.dropWhile p).length = xs.length := by rw [← List.length_append, List.takeWhile_append_dropWhile]
    have e3 : ((xs.dropWhile p).reverse.takeWhile p).length ≤ (xs.dropWhile p).length := by
      have := (List.takeWhile_sublist (p := p) (l := (xs.dropWhile p).reverse)).length_le
      simpa using this
    refine ⟨by rw [e1]; omega, ?_⟩
    unfold trim
    rw [takeWhile_split p (xs.dropWhile p).reverse, e1, ← takeWhile_split p xs, List.drop_reverse, List.reverse_reverse]
    congr 1
    omega

theorem dropWhile_idem (p : α → Bool) {xs : List α} (h : ∀ x, xs.head? = some x → p x = false) : xs.dropWhile p = xs := by
  cases xs with
  | nil => rfl
  | cons x xs => simp [h x rfl]

theorem dropWhile_head (p : α → Bool) (xs : List α) : ∀ x, (xs.dropWhile p).head? = some x → p x = false := by
  induction xs with
  | nil => simp
  | cons y ys ih =>
    cases hy : p y with
    | true => simpa [hy] using ih
    | false => simp [hy]

theorem trim_inked (p : α → Bool) (xs : List α) : Inked p (trim p xs) := by
  unfold trim
  cases h : (xs.dropWhile p).reverse.dropWhile p with
  | nil => exact .inl rfl
  | cons x l => exact .inr ⟨x, by simp, dropWhile_head p _ x (by rw [h]; rfl)⟩

theorem trim_trim (p : α → Bool) (xs : List α) : trim p (trim p xs) = trim p xs := by
  by_cases hn : (xs.dropWhile p).reverse.dropWhile p = []
  · simp [trim, hn]
  · have hhead : ∀ x, (trim p xs).head? = some x → p x = false := by
      intro x hx
      apply dropWhile_head p xs
      have hpre : trim p xs <+: xs.dropWhile p := by
        have := List.dropWhile_suffix (l := (xs.dropWhile p).reverse) p
        have := List.reverse_prefix.2 this
        simpa [trim] using this
      obtain ⟨t, ht⟩ := hpre
      rw [← ht]
      cases hl : trim p xs with
      | nil => rw [hl] at hx; cases hx
      | cons y l => rw [hl] at hx; exact hx
    have e1 : (trim p xs).dropWhile p = trim p xs := dropWhile_idem p hhead
    have e2 : (trim p xs).reverse = (xs.dropWhile p).reverse.dropWhile p := by simp [trim]
    show (((trim p xs).dropWhile p).reverse.dropWhile p).reverse = _
    rw [e1, e2, dropWhile_idem p (dropWhile_head p _)]
    rfl

/-! ## Loops -/

theorem charPtr_deno {s : State α} {v : V α} {a : Addr} (h : Deno s.mem v (.arr a)) : charPtr v s = .ok (some (a, 0)) s := by
  obtain ⟨u, h1, h2⟩ := derefV_tot h
  rcases h2 with rfl | ⟨b, j, k, n, cells, x, -, -, -, h⟩
  · unfold charPtr
    rw [bind_eq h1]
    rfl
  · cases h

theorem leading_run {sp : α → Bool} {s : State α} {v : V α} {a : Addr} (hv : Deno s.mem v (.arr a)) {o : Obj α} {xs : List α} (ha : s.mem[a]? = some (some o)) (hx : Elements o .char xs) :
    ∀ (n i : Nat), i + n = xs.length → leading sp v i n s = .ok (i + ((xs.drop i).takeWhile sp).length) s := by
  intro n
  induction n with
  | zero =>
    intro i hi
    rw [List.drop_of_length_le (by omega)]
    rfl
  | succ n ih =>
    intro i hi
    have hlt : i < xs.length := by omega
    unfold leading
    rw [bind_eq ((charAt_deno hv i).trans (rawAt_run ha (hx.2.2 i _ (List.getElem?_eq_getElem hlt))))]
    rw [List.drop_eq_getElem_cons hlt, List.takeWhile_cons]
    cases h : sp xs[i] with
    | true =>
      simp only [if_true, List.length_cons]
      rw [ih (i + 1) (by omega)]
      congr 1
      omega
    | false => simp [pure_run]

theorem trailing_run {sp : α → Bool} {s : State α} {v : V α} {a : Addr} (hv : Deno s.mem v (.arr a)) {o : Obj α} {xs : List α} (ha : s.mem[a]? = some (some o)) (hx : Elements o .char xs) :
    ∀ (n t : Nat), n ≤ xs.length → trailing sp v n t s = .ok (t + ((xs.take n).reverse.takeWhile sp).length) s := by
  intro n
  induction n with
  | zero => intro t _; rfl
  | succ n ih =>
    intro t hn
    have hlt : n < xs.length := by omega
    unfold trailing
    rw [bind_eq ((charAt_deno hv n).trans (rawAt_run ha (hx.2.2 n _ (List.getElem?_eq_getElem hlt))))]
    rw [List.take_add_one, List.getElem?_eq_getElem hlt]
    simp only [Option.toList_some, List.reverse_append, List.reverse_cons, List.reverse_nil, List.nil_append, List.cons_append, List.takeWhile_cons]
    cases h : sp xs[n] with
    | true =>
      simp only [if_true, List.length_cons]
      rw [ih (t + 1) (by omega)]
      congr 1
      omega
    | false => simp [pure_run]

theorem moveChars_run {s : State α} {a : Addr} {o : Obj α} {xs : List α} (ha : s.mem[a]? = some (some o)) (hx : Elements o .char xs) {d N : Nat} (hd : d + N ≤ xs.length) :
    ∀ (n i : Nat), i + n = N → moveChars a 0 d i n (upd s a { o with cells := written id (xs.drop d) o.cells i }) = .ok () (upd s a { o with cells := written id (xs.drop d) o.cells N }) := by
  intro n
  induction n with
  | zero =>
    intro i hi
    obtain rfl : i = N := by omega
    rfl
  | succ n ih =>
    intro i hi
    have hlt : d + i < xs.length := by omega
    have hil : i < (xs.drop d).length := by simp; omega
    unfold moveChars
    have hc := hx.2.2 (d + i) _ (List.getElem?_eq_getElem hlt)
    refine (bind_eq (rawAt_run (upd_get ha _) (x := xs[d + i]) ?_)).trans ?_
    · simp only
      rw [Nat.zero_add, written_get (by omega) (by omega)]
      exact hc
    · have hy := hx.2.2 i _ (List.getElem?_eq_getElem (show i < xs.length by omega))
      refine (bind_eq (setRaw_run (upd_get ha _) (y := some xs[i]) ?_ _)).trans ?_
      · simp only
        rw [Nat.zero_add, written_get (by omega) (Nat.le_refl i)]
        exact hy
      · rw [upd_upd]
        simp only
        have e : xs[d + i] = id (xs.drop d)[i] := by simp
        rw [Nat.zero_add, e, written_set hil (List.getElem?_eq_some_iff.1 hy).1]
        exact ih (i + 1) (by omega)

/-- Shrinking a string. -/
theorem resize_string [Env α] {s : State α} {own : List Addr} (hi : Inv s own) {t : V α} {e m : Nat} (hm : s.stk[m]? = some t)
    (ht : Deno s.mem t (.arr e)) {oe : Obj α} (he : s.mem[e]? = some (some oe)) (hk : oe.kind = .char) (hts : ∀ b j, t = .ref b j → b ∈ stkPtrs (s.stk.set m (.arr e)))
    {n : Nat} (hf : n + 1 ≤ 2 ^ 30) :
    ∃ m1 o', resize (.slot m) (n : Nat) s = .ok () ⟨m1, s.stk.set m (.arr e)⟩ ∧ Inv ⟨m1, s.stk.set m (.arr e)⟩ own ∧ m1[e]? = some (some o') ∧
      Oth (· = e) s.mem m1 ∧ o'.kind = .char ∧ o'.size = n ∧ ∀ i c, i < n → oe.cells[i]? = some c → o'.cells[i]? = some c := by
  have hlt := (List.getElem?_eq_some_iff.1 hm).1
  have res : ∀ {mem : List (Option (Obj α))} {stk : List (V α)} {rc : Nat}, Inv ⟨mem, stk⟩ own → mem[e]? = some (some { oe with rc := rc }) →
      ∃ m1 o', heapResize e n ⟨mem, stk⟩ = .ok () ⟨m1, stk⟩ ∧ Inv ⟨m1, stk⟩ own ∧ m1[e]? = some (some o') ∧ Oth (· = e) mem m1 ∧ o'.kind = .char ∧ o'.size = n ∧
        ∀ i c, i < n → oe.cells[i]? = some c → o'.cells[i]? = some c := by
    intro mem stk rc hi he
    obtain ⟨cells, h1, h2, h3, h4, -⟩ := resizeObj_run (o := { oe with rc := rc }) (m := n) (by simp only [hk]; exact ⟨by decide, by decide⟩) (char_raw hi he hk) hf
    have hrun : heapResize e n ⟨mem, stk⟩ = .ok () (upd ⟨mem, stk⟩ e { oe with rc := rc, size := n, cells := cells }) := by
      unfold heapResize
      rw [bind_eq (obj_eq (s := ⟨mem, stk⟩) he)]
      simp only [h1]
      rfl
    obtain ⟨i1, -, -⟩ := heapResize_ok hrun hi
    exact ⟨_, _, hrun, i1, upd_get (s := ⟨mem, stk⟩) he _, Oth.upd ⟨mem, stk⟩ e _, hk, rfl, fun i c hi hc => h4 i c (.inl hi) hc⟩
  cases ht with
  | self _ =>
    have hset : s.stk.set m (.arr e) = s.stk := by
      apply List.ext_getElem?
      intro b
      by_cases hb : m = b
      · subst hb; rw [List.getElem?_set_self hlt, hm]
      · rw [List.getElem?_set_ne hb]
    rw [hset]
    obtain ⟨m1, o', e1, i1, g1, k1, g⟩ := res (rc := oe.rc) hi he
    exact ⟨m1, o', (resize_arr hm).trans e1, i1, g1, k1, g⟩
  | @var p j k N cells c _ h1 h2 h3 h4 h5 =>
    obtain ⟨m1, e1, i1, k1⟩ := derefSlot hi hm h1 h2 h3 h4 h5
    have hm1 : (s.stk.set m (.arr e))[m]? = some (.arr e) := List.getElem?_set_self hlt
    obtain ⟨rc, he1⟩ : Is m1 e oe.kind oe.size oe.cells := Is.kept ⟨oe.rc, he⟩ k1 id (i1.stk_live (mem_stkPtrs hm1 (by simp [V.ptr])))
    obtain ⟨m2, o', e2, i2, g1, k2, g⟩ := res (rc := rc) i1 he1
    refine ⟨m2, o', ?_, i2, g1, k1.oth.trans k2, g⟩
    unfold resize
    rw [if_neg (show ¬ ((n : Int) < 0) by omega), bind_eq e1]
    have hp : Is m1 p k N cells := h1.kept k1 id (i1.stk_live (hts p j rfl))
    refine (bind_eq (read_place (q := false) (s := ⟨m1, s.stk.set m (.arr e)⟩) hp h3 h4)).trans ?_
    simp only
    rw [bind_eq (readSlot (s := ⟨m1, s.stk.set m (.arr e)⟩) hm1), bind_eq (heapOf_arr e _)]
    exact e2

/-! ## Strings changed where they are -/

/-- Only strings among `P` have changed: a text `xs` has become `f xs`, if it is one of those that `W` admits. -/
def Cut (W : List α → Prop) (f : List α → List α) (P : Addr → Prop) (mem mem' : List (Option (Obj α))) : Prop :=
  mem.length ≤ mem'.length ∧ ∀ (a : Addr) (o' : Obj α), a < mem.length → mem'[a]? = some (some o') →
    ∃ o : Obj α, mem[a]? = some (some o) ∧ o'.kind = o.kind ∧ (¬ P a ∨ o.kind ≠ .char → o'.size = o.size ∧ o'.cells = o.cells) ∧
      (P a → ∀ xs, Elements o .char xs → W xs → Elements o' .char (f xs))

/-- What is stripped twice is stripped once. -/
structure Once (W : List α → Prop) (f : List α → List α) : Prop where
  stays : ∀ xs, W xs → W (f xs)
  again : ∀ xs, W xs → f (f xs) = f xs

theorem elements_same {o o' : Obj α} {k : Kind} {xs : List α} (h : Elements o k xs) (h1 : o'.kind = o.kind) (h2 : o'.size = o.size) (h3 : o'.cells = o.cells) : Elements o' k xs :=
  ⟨h1.trans h.1, h2.trans h.2.1, fun i x hx => by rw [h3]; exact h.2.2 i x hx⟩

variable {W : List α → Prop} {f : List α → List α}

theorem Cut.of_kept {m1 m2 : List (Option (Obj α))} (h : Kept m1 m2) : Cut W f (fun _ => False) m1 m2 :=
  ⟨h.1, fun a o' ha ho => by
    obtain ⟨o, h1, h2, h3, h4⟩ := h.2 a o' id ha ho
    exact ⟨o, h1, h2, fun _ => ⟨h3, h4⟩, fun h => absurd h id⟩⟩

theorem Cut.trans (hf : Once W f) {P Q : Addr → Prop} {m1 m2 m3 : List (Option (Obj α))} (h1 : Cut W f P m1 m2) (h2 : Cut W f Q m2 m3) : Cut W f (fun a => P a ∨ Q a) m1 m3 := by
  refine ⟨h1.1.trans h2.1, fun a o ha ho => ?_⟩
  obtain ⟨o2, e2, k2, z2, c2⟩ := h2.2 a o (Nat.lt_of_lt_of_le ha h1.1) ho
  obtain ⟨o1, e1, k1, z1, c1⟩ := h1.2 a o2 ha e2
  refine ⟨o1, e1, k2.trans k1, fun hn => ?_, fun hp xs hx hw => ?_⟩
  · have hp : ¬ P a ∨ o1.kind ≠ .char := hn.imp (fun h hp => h (.inl hp)) id
    have hq : ¬ Q a ∨ o2.kind ≠ .char := hn.imp (fun h hp => h (.inr hp)) (fun h => by rw [k1]; exact h)
    exact ⟨(z2 hq).1.trans (z1 hp).1, (z2 hq).2.trans (z1 hp).2⟩
  · by_cases hpa : P a
    · have x2 := c1 hpa xs hx hw
      by_cases hqa : Q a
      · have := c2 hqa _ x2 (hf.stays xs hw)
        rwa [hf.again xs hw] at this
      · exact elements_same x2 k2 (z2 (.inl hqa)).1 (z2 (.inl hqa)).2
    · have hqa : Q a := hp.resolve_left hpa
      exact c2 hqa _ (elements_same hx k1 (z1 (.inl hpa)).1 (z1 (.inl hpa)).2) hw

theorem Cut.congr {P Q : Addr → Prop} {m1 m2 : List (Option (Obj α))} (h : Cut W f P m1 m2) (hc : ∀ a, P a ↔ Q a) : Cut W f Q m1 m2 := by
  have : P = Q := funext fun a => propext (hc a)
  rw [← this]
  exact h

theorem Cut.kept (hf : Once W f) {P : Addr → Prop} {m1 m2 m3 : List (Option (Obj α))} (h1 : Cut W f P m1 m2) (h2 : Kept m2 m3) : Cut W f P m1 m3 :=
  (h1.trans hf (Cut.of_kept h2)).congr fun _ => by simp

theorem Is.cut {P : Addr → Prop} {m1 m2 : List (Option (Obj α))} {a : Addr} {k : Kind} {n : Nat} {cells : List (Cell α)} (h : Is m1 a k n cells) (hu : Cut W f P m1 m2)
    (hk : k ≠ .char) (hl : Live m2 a) : Is m2 a k n cells := by
  obtain ⟨rc, h⟩ := h
  obtain ⟨o2, h2⟩ := hl
  obtain ⟨o1, h1, e1, e23, -⟩ := hu.2 a o2 (lt_of_alive h) h2
  rw [h] at h1
  cases h1
  obtain ⟨e2, e3⟩ := e23 (.inr hk)
  clear e23
  obtain ⟨k', n', rc', cells'⟩ := o2
  simp only at e1 e2 e3
  subst e1 e2 e3
  exact ⟨_, h2⟩

theorem Deno.cut {P : Addr → Prop} {m1 m2 : List (Option (Obj α))} {v : V α} {a : Addr} (h : Deno m1 v (.arr a)) (hu : Cut W f P m1 m2)
    (hl : ∀ b ∈ v.ptr.toList, Live m2 b) : Deno m2 v (.arr a) := by
  cases h with
  | self hv => exact .self hv
  | var h1 h2 h3 h4 h5 => exact .var (h1.cut hu (holds_ne_char h2) (hl _ (by simp [V.ptr]))) h2 h3 h4 h5

/-- Strings in arrays in arrays …, at most so deep, all of them admitted. -/
inductive Words (W : List α → Prop) (mem : List (Option (Obj α))) : V α → Nat → List Addr → Prop
  | str {a : Addr} {o : Obj α} {xs : List α} {d : Nat} : mem[a]? = some (some o) → Elements o .char xs → W xs → Words W mem (.arr a) (d + 1) [a]
  | node {a : Addr} {o : Obj α} {vs : List (V α)} {fs : List (List Addr)} {d : Nat} : mem[a]? = some (some o) → Holds o.kind → vs.length = o.size → fs.length = o.size →
      (∀ (i : Nat) (v : V α), vs[i]? = some v → ∃ c, o.cells[i]? = some c ∧ c.get false = some v) →
      (∀ (i : Nat) (v : V α) (f : List Addr), vs[i]? = some v → fs[i]? = some f → Words W mem v d f) → Words W mem (.arr a) (d + 1) (a :: fs.flatten)

theorem Words.plain {mem : List (Option (Obj α))} {w : V α} {d : Nat} {fp : List Addr} (h : Words W mem w d fp) : ¬ w.IsRef := by
  cases h <;> exact id

theorem Words.cut (hf : Once W f) {P : Addr → Prop} {m1 m2 : List (Option (Obj α))} {stk : List (V α)} {own : List Addr} (hu : Cut W f P m1 m2) (hi : Inv ⟨m2, stk⟩ own) {w : V α} {d : Nat}
    {fp : List Addr} (h : Words W m1 w d fp) : (∀ b ∈ w.ptr.toList, Live m2 b) → Words W m2 w d fp := by
  induction h with
  | @str a o xs d h1 h2 h3 =>
    intro hl
    obtain ⟨o2, g⟩ := hl a (by simp [V.ptr])
    obtain ⟨o1, e1, e2, e3, e4⟩ := hu.2 a o2 (lt_of_alive h1) g
    rw [h1] at e1
    cases e1
    by_cases hp : P a
    · exact .str g (e4 hp xs h2 h3) (hf.stays xs h3)
    · exact .str g (elements_same h2 e2 (e3 (.inl hp)).1 (e3 (.inl hp)).2) h3
  | @node a o vs fs d h1 h2 h3 h4 h5 h6 ih =>
    intro hl
    have his := Is.cut (k := o.kind) (n := o.size) (cells := o.cells) ⟨o.rc, h1⟩ hu (holds_ne_char h2) (hl a (by simp [V.ptr]))
    obtain ⟨rc, g⟩ := id his
    refine .node g h2 h3 h4 h5 fun i v f e1 e2 => ih i v f e1 e2 fun b hb => ?_
    obtain ⟨c, g1, g2⟩ := h5 i v e1
    exact hi.cell_live his (List.mem_of_getElem? g1) (Cell.get_ptrs g2 hb)

/-- What a function does to a string that is its own result. -/
def InPlace [Env α] (W : List α → Prop) (f : List α → List α) (S : StrFn α) : Prop :=
  ∀ {s : State α} {own : List Addr}, Inv s own → ∀ {v u : V α} {a m : Nat} {same : Bool}, Deno s.mem v (.arr a) → s.stk[m]? = some u → Deno s.mem u (.arr a) →
    (∀ b j, u = .ref b j → b ∈ stkPtrs (s.stk.set m (.arr a))) → ∀ {o : Obj α} {xs : List α}, s.mem[a]? = some (some o) → Elements o .char xs → W xs →
    ∃ mem' u', S same v (.slot m) s = .ok () ⟨mem', s.stk.set m u'⟩ ∧ (u' = u ∨ u' = .arr a) ∧ Inv ⟨mem', s.stk.set m u'⟩ own ∧ Cut W f (· = a) s.mem mem'

theorem set_self {l : List β} {i : Nat} {x : β} (h : l[i]? = some x) : l.set i x = l := by
  apply List.ext_getElem?
  intro b
  by_cases hb : i = b
  · subst hb; rw [List.getElem?_set_self (List.getElem?_eq_some_iff.1 h).1, h]
  · rw [List.getElem?_set_ne hb]

theorem cut_one {m1 m2 : List (Option (Obj α))} {a : Addr} (h : Oth (· = a) m1 m2) {o o' : Obj α} {xs : List α} (h1 : m1[a]? = some (some o)) (hx : Elements o .char xs)
    (h2 : m2[a]? = some (some o')) (h3 : Elements o' .char (f xs)) : Cut W f (· = a) m1 m2 := by
  refine ⟨h.1, fun b ob hb ho => ?_⟩
  by_cases hba : b = a
  · subst hba
    rw [h2] at ho
    cases ho
    refine ⟨o, h1, h3.1.trans hx.1.symm, fun hn => ?_, fun _ ys hy _ => ?_⟩
    · rcases hn with hn | hn
      · exact absurd rfl hn
      · exact absurd hx.1 hn
    · have : ys = xs := by
        apply List.ext_getElem?
        intro j
        by_cases hj : j < xs.length
        · have g1 := hx.2.2 j _ (List.getElem?_eq_getElem hj)
          have hj' : j < ys.length := by rw [← hy.2.1, hx.2.1]; exact hj
          have g2 := hy.2.2 j _ (List.getElem?_eq_getElem hj')
          rw [g1] at g2
          rw [List.getElem?_eq_getElem hj, List.getElem?_eq_getElem hj']
          injection g2 with g2
          injection g2 with g2
          rw [g2]
        · rw [List.getElem?_eq_none (l := xs) (by omega), List.getElem?_eq_none (l := ys) (by rw [← hy.2.1, hx.2.1]; omega)]
      rw [this]
      exact h3
  · obtain ⟨o1, e1, e2, e3, e4⟩ := h.2 b ob hba hb ho
    exact ⟨o1, e1, e2, fun _ => ⟨e3, e4⟩, fun h => absurd h hba⟩

/-- `Strip::string` in place. -/
theorem strip_inPlace [Env α] (sp : α → Bool) : InPlace (fun xs : List α => Inked sp xs ∧ Fits xs) (trim sp) (stripIn sp) := by
  intro s own hi v u a m same hv hm hu hus o xs ho hx ⟨hw, hfit⟩
  have his : isSame same v (.slot m) s = .ok true s := by
    unfold isSame
    cases same with
    | true => rfl
    | false =>
      simp only [Bool.false_eq_true, if_false]
      rw [bind_eq (readSlot hm), bind_eq (heapOf_deno hv)]
      simp only
      rw [bind_eq (heapOf_deno hu)]
      simp [pure_run]
  have hsz : sizeV v s = .ok o.size s := sizeV_deno hv (k := o.kind) (cells := o.cells) ⟨o.rc, ho⟩
  have hl := leading_run (sp := sp) hv ho hx xs.length 0 (by omega)
  have ht := trailing_run (sp := sp) hv ho hx xs.length 0 (Nat.le_refl _)
  rw [Nat.zero_add] at hl ht
  rw [List.drop_zero] at hl
  rw [List.take_length] at ht
  obtain ⟨hle, htrim⟩ := trim_eq sp hw
  generalize (xs.takeWhile sp).length = l at hl hle htrim
  generalize (xs.reverse.takeWhile sp).length = t at ht hle htrim
  have hfit' : xs.length + 2 ≤ 2 ^ 30 := hfit
  have hN : ((o.size : Int) - l - t) = ((xs.length - l - t : Nat) : Int) := by rw [hx.2.1]; omega
  -- the text is moved
  have hmove : ∃ cells : List (Cell α), stripMove (some (a, 0)) l ((o.size : Int) - l - t) s = .ok () (upd s a { o with cells := cells }) ∧ (∀ c ∈ cells, ∃ y, c = Cell.raw y) ∧
      ∀ (i : Nat) (x : α), (trim sp xs)[i]? = some x → cells[i]? = some (Cell.raw (some x)) := by
    unfold stripMove
    by_cases hl0 : l = 0
    · rw [if_pos hl0]
      refine ⟨o.cells, by rw [upd_self ho]; rfl, char_raw hi ho hx.1, fun i x hxi => hx.2.2 i x ?_⟩
      rw [htrim, hl0, List.drop_zero, List.getElem?_take] at hxi
      split at hxi
      · exact hxi
      · cases hxi
    · rw [if_neg hl0, hN, if_neg (by omega)]
      simp only [Int.toNat_natCast]
      have hrun := moveChars_run (d := l) (N := xs.length - l - t) ho hx (by omega) (xs.length - l - t) 0 (by omega)
      rw [written_zero, upd_self ho] at hrun
      refine ⟨_, hrun, fun c hc => ?_, fun i x hxi => ?_⟩
      · unfold written at hc
        rcases List.mem_append.1 hc with h | h
        · obtain ⟨x, -, rfl⟩ := List.mem_map.1 h
          exact ⟨_, rfl⟩
        · exact char_raw hi ho hx.1 c (List.mem_of_mem_drop h)
      · have hlt := (List.getElem?_eq_some_iff.1 hxi).1
        rw [htrim] at hxi hlt
        unfold written
        rw [List.getElem?_append_left (by simpa using hlt), List.getElem?_map, hxi]
        rfl
  obtain ⟨cells, e1, hraw, hcells⟩ := hmove
  have hlen : (trim sp xs).length = xs.length - l - t := by rw [htrim]; simp
  let s1 : State α := upd s a { o with cells := cells }
  have i1 : Inv s1 own := upd_raw_inv hi ho hx.1 hraw
  have k1 : Oth (· = a) s.mem s1.mem := Oth.upd s a _
  have hpa : ∀ {z : V α}, Deno s.mem z (.arr a) → ∀ b j, z = .ref b j → b ≠ a := by
    rintro z hz b j rfl rfl
    cases hz with
    | var h1 h2 h3 h4 h5 =>
      obtain ⟨rc, h1⟩ := h1
      rw [ho] at h1
      cases h1
      exact holds_ne_char h2 hx.1
  have hu1 : Deno s1.mem u (.arr a) := hu.kept k1 (hpa hu) fun b hb => i1.stk_live (mem_stkPtrs hm hb)
  have ho1 : s1.mem[a]? = some (some { o with cells := cells }) := upd_get ho _
  have hsz1 : sizeV u s1 = .ok o.size s1 := sizeV_deno hu1 (k := o.kind) (cells := cells) ⟨o.rc, ho1⟩
  have start : ∀ {r : R α Unit}, (readLoc (.slot m) >>= fun w => sizeV w >>= fun k => if (o.size : Int) - l - t ≠ k then resize (.slot m) ((o.size : Int) - l - t) else pure ()) s1 = r →
      stripIn sp same v (.slot m) s = r := by
    intro r h
    unfold stripIn
    rw [bind_eq (readSlot hm), bind_eq (charPtr_deno hu), bind_eq hsz, hx.2.1, bind_eq hl, bind_eq ht]
    rw [bind_eq his, if_pos rfl, ← hx.2.1, bind_eq e1]
    exact h
  by_cases hsame : xs.length - l - t = xs.length
  · refine ⟨s1.mem, u, start ?_, .inl rfl, ?_, cut_one k1 ho hx ho1 ⟨hx.1, by rw [hlen, hsame]; exact hx.2.1, hcells⟩⟩
    · rw [set_self hm, bind_eq (readSlot (s := s1) hm), bind_eq hsz1, if_neg (by rw [hN, hx.2.1, hsame]; simp)]
      rfl
    · rw [set_self hm]
      exact i1
  · obtain ⟨m2, o', e2, i2, g1, k2, g2, g3, g4⟩ := resize_string (s := s1) i1 hm hu1 ho1 hx.1 hus (n := xs.length - l - t) (by omega)
    refine ⟨m2, .arr a, start ?_, .inr rfl, i2, cut_one (k1.trans k2) ho hx g1 ⟨g2, by rw [hlen]; exact g3, fun i x hxi => ?_⟩⟩
    · rw [bind_eq (readSlot (s := s1) hm), bind_eq hsz1, if_pos (by rw [hN, hx.2.1]; exact fun h => hsame (by omega)), hN]
      exact e2
    · have hlt := (List.getElem?_eq_some_iff.1 hxi).1
      exact g4 i _ (by omega) (hcells i x hxi)

theorem strip_once (sp : α → Bool) : Once (fun xs : List α => Inked sp xs ∧ Fits xs) (trim sp) := by
  refine ⟨fun xs h => ⟨trim_inked sp xs, ?_⟩, fun xs _ => trim_trim sp xs⟩
  have h1 : xs.length + 2 ≤ 2 ^ 30 := h.2
  have h2 : (trim sp xs).length ≤ xs.length := by rw [(trim_eq sp h.1).2]; simp; omega
  show (trim sp xs).length + 2 ≤ 2 ^ 30
  omega

/-! ## Nested data -/

/-- The loop, where the output of a turn may be another var in the end. -/
theorem broadcast_set [Env α] {sc : V α → Loc → M α Unit} {v u : V α} {a b : Addr} {stk : List (V α)} {own : List Addr} {m N : Nat} (hm : stk[m]? = some u)
    (hv : ∀ d ∈ v.ptr.toList, d ∈ stkPtrs stk) (J : Nat → List (Option (Obj α)) → Prop)
    (hin : ∀ {i mem}, J i mem → Deno mem v (.arr a)) (hout : ∀ {i mem}, J i mem → Deno mem u (.arr b))
    (hst : ∀ {i mem mem' stk' own'}, J i mem → Kept mem mem' → Inv ⟨mem', stk'⟩ own' → (∀ d ∈ stkPtrs stk, d ∈ stkPtrs stk') → J i mem')
    (hstep : ∀ {i mem}, J i mem → i < N → Inv ⟨mem, stk ++ [.ref b i] ++ [.ref a i]⟩ own →
      ∃ mem' u', sc (.ref a i) (.slot stk.length) ⟨mem, stk ++ [.ref b i] ++ [.ref a i]⟩ = .ok () ⟨mem', stk ++ [u'] ++ [.ref a i]⟩ ∧
        Inv ⟨mem', stk ++ [u'] ++ [.ref a i]⟩ own ∧ J (i + 1) mem') :
    ∀ {n i : Nat} {mem : List (Option (Obj α))}, i + n = N → J i mem → Inv ⟨mem, stk⟩ own →
      ∃ mem', broadcast sc v (.slot m) i n ⟨mem, stk⟩ = .ok () ⟨mem', stk⟩ ∧ Inv ⟨mem', stk⟩ own ∧ J N mem' := by
  intro n
  induction n with
  | zero =>
    intro i mem hn hj hi
    obtain rfl : i = N := by omega
    exact ⟨mem, rfl, hi, hj⟩
  | succ n ih =>
    intro i mem hn hj hi
    have hu : ∀ d ∈ u.ptr.toList, d ∈ stkPtrs stk := fun d hd => mem_stkPtrs hm hd
    obtain ⟨m1, e1, i1, k1⟩ := at_deno hi (fun d hd => hi.stk_live (hu d hd)) (hout hj) i
    have j1 := hst hj k1 i1 (fun _ h => h)
    have i2 : Inv ⟨m1, stk ++ [.ref b i]⟩ own := Inv.push (s := ⟨m1, stk⟩) (v := .ref b i) i1
    obtain ⟨m2, e2, i3, k2⟩ := at_deno i2 (fun d hd => i2.stk_live (up_stk _ (hv d hd))) (hin j1) i
    have j2 := hst j1 k2 i3 (fun d hd => up_stk _ hd)
    have i4 : Inv ⟨m2, stk ++ [.ref b i] ++ [.ref a i]⟩ own := Inv.push (s := ⟨m2, stk ++ [.ref b i]⟩) (v := .ref a i) i3
    obtain ⟨m3, u', e3, i5, j3⟩ := hstep j2 (by omega) i4
    have e4 : ∃ m4, withVar (.ref a i) (fun _ => sc (.ref a i) (.slot stk.length)) ⟨m2, stk ++ [.ref b i]⟩ = .ok () ⟨m4, stk ++ [u']⟩ ∧ Inv ⟨m4, stk ++ [u']⟩ own ∧ Kept m3 m4 := by
      obtain ⟨m4, h1, h2, h3⟩ := detach_tot (s := ⟨m3, stk ++ [u']⟩) (v := .ref a i) (own := own) (Inv.pop (stk := stk ++ [u']) i5)
      refine ⟨m4, ?_, h2, h3⟩
      unfold withVar
      simp only
      rw [e3]
      have hl : (stk ++ [V.ref b i]).length = (stk ++ [u']).length := by simp
      simp only [hl, List.getElem?_concat_length, List.take_left]
      rw [h1]
    obtain ⟨m4, e4, i6, k4⟩ := e4
    have j4 := hst j3 k4 i6 (fun d hd => up_stk _ hd)
    obtain ⟨m5, e5, i7, k5⟩ := withVar_tot (s := ⟨m1, stk⟩) (v := .ref b i) (w := u') (m1 := m4) (b := ())
      (f := fun lr => at' v i >>= fun t => withVar t fun _ => sc t lr) ((bind_eq e2).trans e4) i6
    obtain ⟨m6, e6, i8, j6⟩ := ih (i := i + 1) (by omega) (hst j4 k5 i7 (fun _ h => h)) i7
    refine ⟨m6, ?_, i8, j6⟩
    unfold broadcast
    refine (bind_eq (readSlot (s := ⟨mem, stk⟩) hm)).trans ?_
    refine (bind_eq e1).trans ?_
    exact (bind_eq e5).trans e6

/-- In place, at any depth. -/
theorem words_ok [Env α] {S : StrFn α} (hf : Once W f) (hS : InPlace W f S) (d : Nat) : ∀ {s : State α} {own : List Addr} {v u w : V α} {m : Nat} {fp : List Addr} {same : Bool}, Inv s own →
    Deno s.mem v w → Deno s.mem u w → s.stk[m]? = some u → (∀ b ∈ v.ptr.toList, b ∈ stkPtrs s.stk) → (∀ a o, w = .arr a → s.mem[a]? = some (some o) → o.kind = .char → ∀ b j, u = .ref b j → b ∈ stkPtrs (s.stk.set m (.arr a))) →
    Words W s.mem w d fp →
    ∃ mem' u', strCall S d same v (.slot m) s = .ok () ⟨mem', s.stk.set m u'⟩ ∧ (u' = u ∨ u' = w) ∧ Inv ⟨mem', s.stk.set m u'⟩ own ∧ Cut W f (· ∈ fp) s.mem mem' := by
  induction d with
  | zero => intro s own v u w m fp same _ _ _ _ _ _ h; cases h
  | succ d ih =>
    intro s own v u w m fp same hi hv hu hm hvs hus h
    cases h with
    | @str a o xs _ h1 h2 h3 =>
      obtain ⟨m2, u', e2, hu', i2, k2⟩ := hS hi (same := same) hv hm hu (hus a o rfl h1 h2.1) h1 h2 h3
      refine ⟨m2, u', ?_, hu', i2, k2.congr fun b => by simp⟩
      unfold strCall
      rw [bind_eq (atypeV_deno hv h1), if_pos h2.1]
      exact e2
    | @node a o vs fs _ h1 h2 h3 h4 h5 h6 =>
      have hus' : ∀ b ∈ u.ptr.toList, b ∈ stkPtrs s.stk := fun b hb => mem_stkPtrs hm hb
      let J : Nat → List (Option (Obj α)) → Prop := fun i mem => Deno mem v (.arr a) ∧ Deno mem u (.arr a) ∧ Cut W f (· ∈ (fs.take i).flatten) s.mem mem
      have hst : ∀ {i : Nat} {mem mem' : List (Option (Obj α))} {stk' : List (V α)} {own' : List Addr}, J i mem → Kept mem mem' → Inv ⟨mem', stk'⟩ own' →
          (∀ b ∈ stkPtrs s.stk, b ∈ stkPtrs stk') → J i mem' := by
        rintro i mem mem' stk' own' ⟨j1, j2, j3⟩ hk hi hs
        exact ⟨j1.kept hk (fun _ _ _ => id) fun b hb => hi.stk_live (hs b (hvs b hb)), j2.kept hk (fun _ _ _ => id) fun b hb => hi.stk_live (hs b (hus' b hb)), j3.kept hf hk⟩
      have res := strCall_arr (S := S) (d := d) (same := same) (lo := .slot m) (Q := J o.size) hi hv hvs (k := o.kind) (n := o.size) (cells := o.cells) ⟨o.rc, h1⟩ (holds_ne_char h2)
        (fun hj hk hi => hst hj hk hi (fun _ h => h)) (fun m1 k1 i1 => by
          refine broadcast_set (u := u) (a := a) (b := a) (N := o.size) (slot_append hm) (fun b hb => up_stk _ (hvs b hb)) J (fun hj => hj.1) (fun hj => hj.2.1)
            (fun hj hk hi hs => hst hj hk hi fun b hb => hs b (up_stk _ hb)) ?_ (Nat.zero_add _) ?_ i1
          · rintro i mem ⟨j1, j2, j3⟩ hlt hi'
            have hv' := List.getElem?_eq_getElem (l := vs) (show i < vs.length by omega)
            have hf' := List.getElem?_eq_getElem (l := fs) (show i < fs.length by omega)
            obtain ⟨c, g1, g2⟩ := h5 i _ hv'
            have ha : ∀ x : V α, a ∈ stkPtrs (s.stk ++ [v] ++ [x] ++ [.ref a i]) := fun x => by rw [stkPtrs_append]; simp [stkPtrs, V.ptr]
            have his : Is mem a o.kind o.size o.cells := Is.cut ⟨o.rc, h1⟩ j3 (holds_ne_char h2) (hi'.stk_live (ha _))
            have hstr : Words W mem vs[i] d fs[i] := Words.cut hf j3 hi' (h6 i _ _ hv' hf') fun b hb => hi'.cell_live his (List.mem_of_getElem? g1) (Cell.get_ptrs g2 hb)
            have hden : Deno mem (.ref a i) vs[i] := .var his h2 g1 g2 hstr.plain
            have hset : ∀ x : V α, (s.stk ++ [v] ++ [V.ref a i] ++ [V.ref a i]).set (s.stk ++ [v]).length x = s.stk ++ [v] ++ [x] ++ [V.ref a i] := fun x => by
              rw [List.append_assoc _ [V.ref a i], List.set_append_right _ _ (Nat.le_refl _), Nat.sub_self]
              simp
            obtain ⟨m2, u', e2, hu', i2, k2⟩ := ih (same := false) (s := ⟨mem, s.stk ++ [v] ++ [.ref a i] ++ [.ref a i]⟩) (m := (s.stk ++ [v]).length) (u := .ref a i) hi' hden hden
              (by rw [List.append_assoc _ [V.ref a i], List.getElem?_append_right (Nat.le_refl _), Nat.sub_self]; rfl) (fun b hb => by simp only [V.ptr, Option.toList_some, List.mem_singleton] at hb; subst hb; exact ha _)
              (fun x _ _ _ _ b j hb => by cases hb; rw [hset]; exact ha _) hstr
            rw [hset] at e2 i2
            have up2 : ∀ b ∈ stkPtrs s.stk, b ∈ stkPtrs (s.stk ++ [v] ++ [u'] ++ [.ref a i]) := fun b hb => up_stk _ (up_stk _ (up_stk _ hb))
            refine ⟨m2, u', e2, i2, j1.cut k2 fun b hb => i2.stk_live (up2 b (hvs b hb)), j2.cut k2 fun b hb => i2.stk_live (up2 b (hus' b hb)), (j3.trans hf k2).congr fun b => ?_⟩
            show b ∈ (fs.take i).flatten ∨ b ∈ fs[i] ↔ b ∈ (fs.take (i + 1)).flatten
            rw [List.take_add_one, hf', List.flatten_append, List.mem_append]
            simp
          · exact ⟨hv.kept k1 (fun _ _ _ => id) fun b hb => i1.stk_live (up_stk _ (hvs b hb)), hu.kept k1 (fun _ _ _ => id) fun b hb => i1.stk_live (up_stk _ (hus' b hb)),
              (Cut.of_kept k1).congr fun b => by simp⟩)
      obtain ⟨m2, e2, i2, j1, j2, j3⟩ := res
      refine ⟨m2, u, by rw [set_self hm]; exact e2, .inl rfl, by rw [set_self hm]; exact i2, j3.1, fun b o' hb ho => ?_⟩
      obtain ⟨ob, g1, g2, g3, g4⟩ := j3.2 b o' hb ho
      rw [List.take_of_length_le (by omega)] at g3 g4
      refine ⟨ob, g1, g2, fun hn => g3 (hn.imp (fun h hm => h (List.mem_cons_of_mem _ hm)) id), fun hm xs hx hw => ?_⟩
      rcases List.mem_cons.1 hm with rfl | hm
      · rw [h1] at g1
        cases g1
        exact absurd hx.1 (holds_ne_char h2)
      · exact g4 hm xs hx hw

end Libube.Mem

import Verif.Lemmas.MemPrintRead
import Verif.Props.MemPrint
import Verif.Props.JsonLost
import Verif.Props.JsonView

/-! # Printing a variable and reading the text (C169) -/

namespace Libube.MemProps

open Mem MemSpec CString JsonSpec

variable {α : Type}

attribute [local instance] intEnv

/-- What is printed of a variable is the text of its value, wherever the data are in memory and whatever shares them. -/
theorem print_is_format [Env α] [DecidableEq α] {p : Printer α} {N : Numbers α} (hp : WritesAs p N) {s : State α} (hr : Reach s) {m : Nat} {d : Data α} (h : IsShown s m d)
    {v : Val} (hv : Means N d v) {n : Nat} (hn : d.depth ≤ n) : print p n m s = .ok (Json.format 0 v) s := by
  rw [print_partial p hr h hn, text_format hp hv]

/-- Two variables with the same value have the same text, even if one is a copy of the other. -/
theorem print_same [Env α] [DecidableEq α] {p : Printer α} {N : Numbers α} (hp : WritesAs p N) {s t : State α} (hs : Reach s) (ht : Reach t) {m k : Nat} {d e : Data α}
    (hd : IsShown s m d) (he : IsShown t k e) {v : Val} (hv : Means N d v) (hw : Means N e v) :
    ∃ u n, ∀ l, n ≤ l → print p l m s = .ok u s ∧ print p l k t = .ok u t :=
  ⟨Json.format 0 v, max d.depth e.depth, fun _ hl => ⟨print_is_format hp hs hd hv (le_trans (le_max_left _ _) hl), print_is_format hp ht he hw (le_trans (le_max_right _ _) hl)⟩⟩

/-- What is printed of a variable is read, completely, to the same data.  Missing: what C20 misses, for which it is false
    (`printed_string_iff`, `printed_numbers_rejected`, C20). -/
theorem print_read_partial [Env α] [DecidableEq α] {p : Printer α} {N : Numbers α} (hp : WritesAs p N) {s : State α} (hr : Reach s) {m : Nat} {d : Data α} (h : IsShown s m d)
    {v : Val} (hv : Means N d v) (hg : Good v) {n : Nat} (hn : d.depth ≤ n) {k : Nat} (hk : 2 ≤ k) :
    ∃ t w, print p n m s = .ok t s ∧ JsonSpec.Same v w ∧ ∀ fuel, 2 * t.length + 1 ≤ fuel → Json.parse k fuel t = .ok (w, []) := by
  obtain ⟨k, rfl⟩ : ∃ j, k = j + 2 := ⟨k - 2, by omega⟩
  obtain ⟨w, h1, h2, -⟩ := Json.good_trips hg
  obtain ⟨u, h3, h4⟩ := h2 k 0 [] (.inl rfl)
  rw [List.append_nil] at h3
  refine ⟨_, w, print_is_format hp hr h hv hn, h1, fun fuel hf => ?_⟩
  rw [Json.parse_of_runs h3 fuel hf, show u.rest = [] from h4]

/-- A string in memory comes back from what is printed of it exactly if it has no quotation mark and no backslash. -/
theorem printed_string_iff [Env α] [DecidableEq α] {p : Printer α} {N : Numbers α} (hp : WritesAs p N) {s : State α} (hr : Reach s) {m : Nat}
    {xs : List α} (h : IsShown s m (.str xs)) (hx : ∀ x ∈ xs, N.char x ≠ 0) {n : Nat} (hn : 1 ≤ n) {k : Nat} (hk : 2 ≤ k) :
    ∃ t, print p n m s = .ok t s ∧ ∀ fuel, 2 * t.length + 1 ≤ fuel →
      ((∃ r, Json.parse k fuel t = .ok (.chars (xs.map N.char), r)) ↔ 34 ∉ xs.map N.char ∧ 92 ∉ xs.map N.char) := by
  refine ⟨_, print_is_format hp hr h (.str xs hx) (by simpa [Data.depth] using hn), fun fuel hf => ?_⟩
  have hz : (0 : UInt8) ∉ xs.map N.char := by
    intro hm
    obtain ⟨x, h1, h2⟩ := List.mem_map.1 hm
    exact hx x h1 h2
  have := Json.string_round_trip_iff (xs.map N.char) k hk fuel hf
  constructor
  · rintro ⟨r, h1⟩
    exact (this.1 ⟨_, r, h1, .chars _⟩).2
  · rintro ⟨h1, h2⟩
    obtain ⟨w, r, h3, h4⟩ := this.2 ⟨hz, h1, h2⟩
    cases h4
    exact ⟨r, h3⟩

/-- What is printed of an array of integers, if it is not empty, is rejected. -/
theorem printed_numbers_rejected [Env α] [DecidableEq α] {p : Printer α} {N : Numbers α} (hp : WritesAs p N) {s : State α} (hr : Reach s) {m : Nat}
    {k : Kind} (hk : k = .int ∨ k = .long) {xs : List α} (hne : xs ≠ []) (h : IsShown s m (.nums k xs)) {n : Nat} (hn : 2 ≤ n) {c : Nat} (hc : 2 ≤ c) :
    ∃ t, print p n m s = .ok t s ∧ ∀ fuel, 2 * t.length + 1 ≤ fuel → ∃ e, Json.parse c fuel t = .thrown e := by
  have hd : (Data.nums k xs : Data α).depth ≤ n := by
    cases xs <;> simp [Data.depth] <;> omega
  have key : ∀ is : List Int, is ≠ [] → (∀ i ∈ is, JsonSpec.Fits i) → ∀ fuel, 2 * (Json.showDense (is.map showInt)).length + 1 ≤ fuel →
      ∃ e, Json.parse c fuel (Json.showDense (is.map showInt)) = .thrown e := by
    intro is h1 h2 fuel hf
    have e : Json.showDense (is.map showInt) = 91 :: listText ((is.map fun i => (showInt i, i)).map Prod.fst) ++ [93] := by
      rw [List.map_map, show (Prod.fst ∘ fun i : Int => (showInt i, i)) = showInt from rfl]
      generalize is.map showInt = ts
      match ts with
      | [] => rfl
      | t :: ts =>
        have : ∀ (us : List Bytes) (t : Bytes), listText (t :: us) = t ++ us.flatMap (fun y => [44, 32] ++ y) := by
          intro us
          induction us with
          | nil => intro t; simp [listText]
          | cons u us ih => intro t; rw [listText, ih]; simp
        rw [Json.showDense, this]
    rw [e] at hf ⊢
    refine Json.array_text_rejected _ (fun q hq => ?_) (by simpa using h1) c hc fuel hf
    obtain ⟨i, hi, rfl⟩ := List.mem_map.1 hq
    exact ⟨Json.showInt_numeral i, h2 i hi⟩
  rcases hk with rfl | rfl
  · refine ⟨_, print_is_format hp hr h (.ints xs) hd, ?_⟩
    have := key (xs.map fun x => (N.int x).toInt) (by simpa using hne) fun i hi => by
      obtain ⟨x, -, rfl⟩ := List.mem_map.1 hi
      have := @BitVec.toInt_lt 32 (N.int x)
      have := @BitVec.le_toInt 32 (N.int x)
      unfold JsonSpec.Fits
      omega
    simpa [Json.format, Function.comp_def] using this
  · refine ⟨_, print_is_format hp hr h (.longs xs) hd, ?_⟩
    have := key (xs.map fun x => (N.long x).toInt) (by simpa using hne) fun i hi => by
      obtain ⟨x, -, rfl⟩ := List.mem_map.1 hi
      exact ⟨@BitVec.le_toInt 64 (N.long x), @BitVec.toInt_lt 64 (N.long x)⟩
    simpa [Json.format, Function.comp_def] using this

/-- The numbers of the examples, and a stream that writes them. -/
def intNumbers : Numbers Int := ⟨fun x => UInt8.ofNat x.toNat, .ofInt 32, .ofInt 64, .ofInt 32, .ofInt 64, fun x => (.ofInt 32 x, 0), fun x => (.ofInt 64 x, 0)⟩

@[inherit_doc intNumbers]
def decimalPrinter : Printer Int where
  num k x := match k with
    | .char => [intNumbers.char x]
    | .int => showInt (intNumbers.int x).toInt
    | .long => showInt (intNumbers.long x).toInt
    | .float => Json.showFloat (intNumbers.float x)
    | .double => Json.showDouble (intNumbers.double x)
    | .cfloat => Json.showCFloat (intNumbers.cfloat x).1 (intNumbers.cfloat x).2
    | .cdouble => Json.showCDouble (intNumbers.cdouble x).1 (intNumbers.cdouble x).2
    | _ => []
  ptr _ i := Json.showPointer i

theorem decimal_writes : WritesAs decimalPrinter intNumbers :=
  ⟨fun _ => rfl, fun _ => rfl, fun _ => rfl, fun _ => rfl, fun _ => rfl, fun _ => rfl, fun _ => rfl⟩

/-- `x[1] = "A"; x[0] = nil; z["A"] = x;` -/
def progBack : List (Stmt Int) :=
  [.decl .nil, .setElem 0 1 (.str [65]), .decl .nil, .setKey 1 (.str [65]) (.name 0)]

theorem progBack_string (a : Addr) (h : (match (final progBack).mem[a]? with
    | some (some o) => decide (o.kind = .char ∧ o.cells.take 2 = [.raw (some 65), .raw (some 0)]) | _ => false) = true) :
    IsData (final progBack).mem (.arr a) (.str [65]) := by
  obtain ⟨o, ho, hk, hc⟩ := obj_with (fun o => o.kind = .char ∧ o.cells.take 2 = [.raw (some 65), .raw (some 0)]) _ h
  refine .str ho hk (by decide) fun i x hi => ?_
  have : (o.cells.take 2)[i]? = some (.raw (some x)) := by
    rw [hc]
    match i with
    | 0 => cases hi; rfl
    | 1 => cases hi; rfl
    | i + 2 => simp at hi
  rw [List.getElem?_take] at this
  split at this
  · exact this
  · cases this

theorem progBack_shown : IsShown (final progBack) 1 (.map [(.str [65], .list [.nil, .str [65]])]) := by
  have hin : IsData (final progBack).mem (.arr 1) (.list [.nil, .str [65]]) := by
    obtain ⟨o, ho, hk, hn, hc⟩ := obj_with (fun o => o.kind = .var ∧ o.size = 2 ∧ o.cells.take 2 = [.var .nil, .var (.arr 0)])
      (final progBack).mem[1]? (by decide +kernel)
    have hat : ∀ i, i < 2 → o.cells[i]? = (o.cells.take 2)[i]? := fun i hi => by simp [List.getElem?_take, hi]
    refine .list (v := fun i => if i = 0 then .nil else .arr 0) ho hk hn (fun i hi => ?_) fun i d hd => ?_
    · rw [hat i hi, hc]
      match i with
      | 0 => rfl
      | 1 => rfl
      | i + 2 => simp at hi
    · match i with
      | 0 => cases hd; exact .nil
      | 1 => cases hd; exact progBack_string 0 (by decide +kernel)
      | i + 2 => simp at hd
  obtain ⟨o, ho, hk, hn, hc⟩ := obj_with (fun o => o.kind = .pair ∧ o.size = 1 ∧ o.cells.take 1 = [.pair (.arr 2) (.arr 1)])
    (final progBack).mem[3]? (by decide +kernel)
  refine ⟨.arr 3, .arr 3, by decide +kernel, .inl ⟨rfl, by simp⟩, ?_⟩
  refine .map (u := fun _ => .arr 2) (v := fun _ => .arr 1) ho hk hn (fun i hi => ?_) (fun i d hd => ?_) fun i d hd => ?_
  · obtain rfl : i = 0 := by simpa using hi
    have : o.cells[0]? = (o.cells.take 1)[0]? := by simp [List.getElem?_take]
    rw [this, hc]
    rfl
  · match i with
    | 0 => cases hd; exact progBack_string 2 (by decide +kernel)
    | i + 1 => simp at hd
  · match i with
    | 0 => cases hd; exact hin
    | i + 1 => simp at hd

/-- The value of `z`: `{"A": [null, "A"]}`. -/
theorem progBack_means : Means intNumbers (.map [(.str [65], .list [.nil, .str [65]])]) (.map [(.chars [65], .arr [.nil, .chars [65]])]) := by
  have hs : Means intNumbers (.str [65]) (.chars [65]) := .str [65] (by decide)
  refine .map _ _ rfl (fun i d v hd hv => ?_) fun i d v hd hv => ?_
  · match i with
    | 0 => cases hd; cases hv; exact hs
    | i + 1 => simp at hd
  · match i with
    | 0 =>
      cases hd
      cases hv
      refine .list _ _ rfl fun i d v hd hv => ?_
      match i with
      | 0 => cases hd; cases hv; exact .nil
      | 1 => cases hd; cases hv; exact hs
      | i + 2 => simp at hd
    | i + 1 => simp at hd

theorem progBack_good : Good (.map [(.chars [65], .arr [.nil, .chars [65]])]) := by
  refine .map _ (fun p hp => ?_) (by simp) fun p hp => ?_
  · obtain rfl : p = _ := by simpa using hp
    exact ⟨_, rfl, by decide⟩
  · obtain rfl : p = _ := by simpa using hp
    refine .arr _ _ (by simp [IsInteger]) fun y hy => ?_
    simp only [List.mem_cons, List.not_mem_nil, or_false] at hy
    rcases hy with rfl | rfl
    · exact .nil
    · exact .chars _ (by decide)

example : ∃ d v, Reach (final progBack) ∧ WritesAs decimalPrinter intNumbers ∧ IsShown (final progBack) 1 d ∧ Means intNumbers d v ∧ Good v ∧ d.depth ≤ 3 :=
  ⟨_, _, reach_exec progBack .start (by decide +kernel), decimal_writes, progBack_shown, progBack_means, progBack_good, by simp [Data.depth]⟩

/-- `s = "A\"";` -/
def progQuote : List (Stmt Int) := [.decl (.str [65, 34])]

example : Reach (final progQuote) ∧ IsShown (final progQuote) 0 (.str [65, 34]) ∧ (∀ x ∈ ([65, 34] : List Int), intNumbers.char x ≠ 0) ∧
    34 ∈ ([65, 34] : List Int).map intNumbers.char := by
  refine ⟨reach_exec progQuote .start (by decide +kernel), ⟨.arr 0, .arr 0, by decide +kernel, .inl ⟨rfl, by simp⟩, ?_⟩, by decide, by decide⟩
  obtain ⟨o, ho, hk, hc⟩ := obj_with (fun o => o.kind = .char ∧ o.cells.take 3 = [.raw (some 65), .raw (some 34), .raw (some 0)])
    (final progQuote).mem[0]? (by decide +kernel)
  refine .str ho hk (by decide) fun i x hi => ?_
  have : (o.cells.take 3)[i]? = some (.raw (some x)) := by
    rw [hc]
    match i with
    | 0 => cases hi; rfl
    | 1 => cases hi; rfl
    | 2 => cases hi; rfl
    | i + 3 => simp at hi
  rw [List.getElem?_take] at this
  split at this
  · exact this
  · cases this

/-- `x.push(1); x.push(2);` -/
def progNumbers : List (Stmt Int) := [.decl .nil, .push 0 (.num .int 1), .push 0 (.num .int 2)]

example : Reach (final progNumbers) ∧ IsShown (final progNumbers) 0 (.nums .int [1, 2]) := by
  refine ⟨reach_exec progNumbers .start (by decide +kernel), ⟨.arr 0, .arr 0, by decide +kernel, .inl ⟨rfl, by simp⟩, ?_⟩⟩
  obtain ⟨o, ho, hk, hn, hc⟩ := obj_with (fun o => o.kind = .int ∧ o.size = 2 ∧ o.cells.take 2 = [.raw (some 1), .raw (some 2)])
    (final progNumbers).mem[0]? (by decide +kernel)
  refine .nums ho ⟨⟨by decide, by decide⟩, by decide⟩ (by decide) ⟨hk, hn, fun i x hi => ?_⟩
  have : (o.cells.take 2)[i]? = some (.raw (some x)) := by
    rw [hc]
    match i with
    | 0 => cases hi; rfl
    | 1 => cases hi; rfl
    | i + 2 => simp at hi
  rw [List.getElem?_take] at this
  split at this
  · exact this
  · cases this

#print axioms print_is_format
#print axioms print_same
#print axioms print_read_partial
#print axioms printed_string_iff
#print axioms printed_numbers_rejected

end Libube.MemProps

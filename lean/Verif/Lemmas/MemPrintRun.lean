import Verif.Lemmas.MemPrint
import Mathlib.Tactic.Choose

/-! # Printing what may be nested without end -/

namespace Libube.Mem

open MemSpec CString

variable {α : Type}

theorem same_fine [Env α] {mem mem' : List (Option (Obj α))} {S : Addr → Prop} (hs : SameArrays mem mem') (h : Fine mem S) : Fine mem' S := by
  intro a ha
  obtain ⟨o, h1, h2⟩ := h a ha
  obtain ⟨o', g1, g2, g3, g4⟩ := hs a o h1
  refine ⟨o', g1, ?_⟩
  unfold FineObj Elements at h2 ⊢
  rw [g2, g3, g4]
  exact h2

theorem bump_fine [Env α] {mem : List (Option (Obj α))} {S : Addr → Prop} (v : V α) (h : Fine mem S) : Fine (bump v mem) S :=
  same_fine (bump_same v mem) h

theorem data_var [Env α] {mem : List (Option (Obj α))} {a : Addr} {o : Obj α} {d : Data α} (h : IsData mem (.arr a) d) (ha : mem[a]? = some (some o))
    (hk : o.kind = .var) : ∃ ds, d = .list ds ∧ o.size = ds.length ∧ ∀ (i : Nat) (x : Data α) (v : V α), ds[i]? = some x → o.cells[i]? = some (.var v) → IsData mem v x := by
  cases h with
  | @list _ o' ds w h1 h2 h3 h4 h5 =>
    rw [h1] at ha
    cases ha
    refine ⟨ds, rfl, h3, fun i x v hx hv => ?_⟩
    have := h4 i (List.getElem?_eq_some_iff.1 hx).1
    rw [hv] at this
    cases this
    exact h5 i x hx
  | str h1 h2 | map h1 h2 =>
    rw [h1] at ha
    cases ha
    rw [h2] at hk
    cases hk
  | nums h1 h2 h3 h4 =>
    rw [h1] at ha
    cases ha
    have := h4.1
    rw [hk] at this
    exact absurd this.symm h2.1.1
  | cplx h1 h4 =>
    rw [h1] at ha
    cases ha
    have := h4.1
    rw [hk] at this
    cases this

theorem data_pair [Env α] {mem : List (Option (Obj α))} {a : Addr} {o : Obj α} {d : Data α} (h : IsData mem (.arr a) d) (ha : mem[a]? = some (some o))
    (hk : o.kind = .pair) : ∃ ds, d = .map ds ∧ o.size = ds.length ∧ ∀ (i : Nat) (x : Data α × Data α) (u v : V α), ds[i]? = some x →
      o.cells[i]? = some (.pair u v) → IsData mem u x.1 ∧ IsData mem v x.2 := by
  cases h with
  | @map _ o' ds w w' h1 h2 h3 h4 h5 h6 =>
    rw [h1] at ha
    cases ha
    refine ⟨ds, rfl, h3, fun i x u v hx hv => ?_⟩
    have := h4 i (List.getElem?_eq_some_iff.1 hx).1
    rw [hv] at this
    cases this
    exact ⟨h5 i x hx, h6 i x hx⟩
  | str h1 h2 | list h1 h2 =>
    rw [h1] at ha
    cases ha
    rw [h2] at hk
    cases hk
  | nums h1 h2 h3 h4 =>
    rw [h1] at ha
    cases ha
    have := h4.1
    rw [hk] at this
    exact absurd this.symm h2.1.2
  | cplx h1 h4 =>
    rw [h1] at ha
    cases ha
    have := h4.1
    rw [hk] at this
    cases this

theorem data_nums [Env α] {mem : List (Option (Obj α))} {a : Addr} {o : Obj α} {d : Data α} (h : IsData mem (.arr a) d) (ha : mem[a]? = some (some o))
    (hk : Scalar o.kind) (hc : o.kind ≠ .char) : ∃ xs, d = .nums o.kind xs ∧ o.size = xs.length := by
  cases h with
  | nums h1 h2 h3 h4 =>
    rw [h1] at ha
    cases ha
    obtain ⟨rfl, h5, -⟩ := h4
    exact ⟨_, rfl, h5⟩
  | str h1 h2 =>
    rw [h1] at ha
    cases ha
    exact absurd h2 hc
  | list h1 h2 =>
    rw [h1] at ha
    cases ha
    exact absurd h2 hk.1.1
  | map h1 h2 =>
    rw [h1] at ha
    cases ha
    exact absurd h2 hk.1.2
  | cplx h1 h4 =>
    rw [h1] at ha
    cases ha
    exact absurd h4.1 hk.2

theorem bind_bind_eq {m : M α β} {f : β → M α γ} {s s' : State α} {b : γ} (h : (m >>= f) s = .ok b s') (g : γ → M α δ) :
    (m >>= fun r => f r >>= g) s = g b s' := by
  simp only [bind_run, M.bind] at h ⊢
  cases hm : m s with
  | ok c t =>
    simp only [hm] at h ⊢
    rw [h]
  | _ => simp [hm] at h

theorem bind_bind_diverge {m : M α β} {f : β → M α γ} {s : State α} (h : (m >>= f) s = .diverge) (g : γ → M α δ) :
    (m >>= fun r => f r >>= g) s = .diverge := by
  simp only [bind_run, M.bind] at h ⊢
  cases hm : m s with
  | ok c t =>
    simp only [hm] at h ⊢
    rw [h]
  | _ => simp [hm] at h ⊢

/-- Printing ends or not. -/
def Prints [Env α] (p : Printer α) (mem : List (Option (Obj α))) (w : V α) (n ind : Nat) (m : M α Bytes) (s : State α) : Prop :=
  (∃ d, IsData mem w d ∧ d.depth ≤ n ∧ m s = .ok (d.text p ind) s) ∨ (m s = .diverge ∧ ¬ ∃ d, IsData mem w d ∧ d.depth ≤ n)

/-- A step of a loop: all elements print, or one does not end. -/
theorem steps {P : Nat → Data α → Prop} {f : Nat → M α Bytes} {g : Nat → Data α → Bytes} {s : State α} {n : Nat}
    (h : ∀ i < n, (∃ d, P i d ∧ f i s = .ok (g i d) s) ∨ (f i s = .diverge ∧ ¬ ∃ d, P i d)) :
    (∃ t : Nat → Data α, (∀ i < n, P i (t i)) ∧ putLoop f 0 n s = .ok ((List.range' 0 n).flatMap fun i => g i (t i)) s) ∨
      (putLoop f 0 n s = .diverge ∧ ∃ i < n, ¬ ∃ d, P i d) := by
  by_cases hall : ∀ i < n, ∃ d, P i d ∧ f i s = .ok (g i d) s
  · left
    have : ∀ i, ∃ d, i < n → P i d ∧ f i s = .ok (g i d) s := by
      intro i
      by_cases hi : i < n
      · obtain ⟨d, hd⟩ := hall i hi
        exact ⟨d, fun _ => hd⟩
      · exact ⟨.nil, fun h => absurd h hi⟩
    choose t ht using this
    exact ⟨t, fun i hi => (ht i hi).1, putLoop_run fun j _ h2 => (ht j (by omega)).2⟩
  · right
    rw [not_forall] at hall
    obtain ⟨i, hi⟩ := hall
    rw [Classical.not_imp] at hi
    obtain ⟨hi, hn⟩ := hi
    rcases h i hi with h1 | ⟨h1, h2⟩
    · exact absurd h1 hn
    refine ⟨putLoop_diverge (fun j _ h2 => ?_) ⟨i, by omega, by omega, h1⟩, i, hi, h2⟩
    rcases h j (by omega) with ⟨d, -, h3⟩ | ⟨h3, -⟩
    · exact .inl ⟨_, h3⟩
    · exact .inr h3

/-- The same for pairs. -/
theorem steps2 {P : Nat → Data α × Data α → Prop} {f : Nat → M α Bytes} {g : Nat → Data α × Data α → Bytes} {s : State α} {n : Nat}
    (h : ∀ i < n, (∃ d, P i d ∧ f i s = .ok (g i d) s) ∨ (f i s = .diverge ∧ ¬ ∃ d, P i d)) :
    (∃ t : Nat → Data α × Data α, (∀ i < n, P i (t i)) ∧ putLoop f 0 n s = .ok ((List.range' 0 n).flatMap fun i => g i (t i)) s) ∨
      (putLoop f 0 n s = .diverge ∧ ∃ i < n, ¬ ∃ d, P i d) := by
  by_cases hall : ∀ i < n, ∃ d, P i d ∧ f i s = .ok (g i d) s
  · left
    have : ∀ i, ∃ d, i < n → P i d ∧ f i s = .ok (g i d) s := by
      intro i
      by_cases hi : i < n
      · obtain ⟨d, hd⟩ := hall i hi
        exact ⟨d, fun _ => hd⟩
      · exact ⟨(.nil, .nil), fun h => absurd h hi⟩
    choose t ht using this
    exact ⟨t, fun i hi => (ht i hi).1, putLoop_run fun j _ h2 => (ht j (by omega)).2⟩
  · right
    rw [not_forall] at hall
    obtain ⟨i, hi⟩ := hall
    rw [Classical.not_imp] at hi
    obtain ⟨hi, hn⟩ := hi
    rcases h i hi with h1 | ⟨h1, h2⟩
    · exact absurd h1 hn
    refine ⟨putLoop_diverge (fun j _ h2 => ?_) ⟨i, by omega, by omega, h1⟩, i, hi, h2⟩
    rcases h j (by omega) with ⟨d, -, h3⟩ | ⟨h3, -⟩
    · exact .inl ⟨_, h3⟩
    · exact .inr h3

/-- What printing to a depth does for the vars of a state. -/
def Upto [Env α] [DecidableEq α] (p : Printer α) (S : Addr → Prop) (n : Nat) : Prop :=
  ∀ (mem : List (Option (Obj α))) (stk : List (V α)) (q : Nat) (v w : V α) (ind : Nat), Fine mem S → Counted mem → stk[q]? = some v → Deno mem v w → Alive v mem →
    FineVar S w → Prints p mem w n ind (format p n ind (.slot q)) ⟨mem, stk⟩

theorem _root_.Libube.MemSpec.FineVar.plain {S : Addr → Prop} {v : V α} (h : FineVar S v) : ¬ v.IsRef := by
  cases v <;> simp_all [FineVar, V.IsRef]

theorem _root_.Libube.MemSpec.FineVar.alive [Env α] {S : Addr → Prop} {v : V α} {mem : List (Option (Obj α))} (h : FineVar S v) (hf : Fine mem S) : Alive v mem := by
  intro a ha
  cases v with
  | arr b =>
    cases ha
    obtain ⟨o, h1, -⟩ := hf _ h
    exact ⟨o, h1⟩
  | ref b j => exact absurd h (by simp [FineVar])
  | _ => cases ha

/-- An element printed through a temporary reference. -/
theorem elem_prints [Env α] [DecidableEq α] {p : Printer α} {S : Addr → Prop} {n : Nat} (ih : Upto p S n) {mem : List (Option (Obj α))} {stk : List (V α)} {q : Nat} {v x : V α}
    {a : Addr} {k : Kind} {m : Nat} {cells : List (Cell α)} {c : Cell α} (ind : Nat) (hf : Fine mem S) (hc : Counted mem) (hq : stk[q]? = some v) (hd : Deno mem v (.arr a))
    (h : Is mem a k m cells) (hk : k = .var ∨ k = .pair) {i : Nat} (hi : i < m) (hx : cells[i]? = some c) (hg : c.get false = some x) (hfx : FineVar S x) :
    Prints p mem x n ind (index (.slot q) i >>= fun r => withVar r (format p n ind)) ⟨mem, stk⟩ := by
  have hl : Alive (.ref a i : V α) mem := fun b hb => by cases hb; exact h.live
  have hp := ih (bump (.ref a i) mem) (stk ++ [.ref a i]) stk.length (.ref a i) x ind (bump_fine _ hf) (bump_counted _ hc) (by simp)
    (bump_deno _ (.var h hk hx hg hfx.plain)) (bump_alive _ hl) hfx
  have e : (index (.slot q) i >>= fun r => withVar r (format p n ind)) ⟨mem, stk⟩ = withVar (.ref a i) (format p n ind) ⟨bump (.ref a i) mem, stk⟩ :=
    bind_eq (index_bump hq hd h hi)
  rcases hp with ⟨d, h1, h2, h3⟩ | ⟨h3, h1⟩
  · exact .inl ⟨d, (bump_data _).1 h1, h2, e.trans (with_bump hc hl h3)⟩
  · refine .inr ⟨e.trans (with_diverge h3), fun ⟨d, g1, g2⟩ => h1 ⟨d, (bump_data _).2 g1, g2⟩⟩

/-- A copy printed with `operator <<`. -/
theorem copy_prints [Env α] [DecidableEq α] {p : Printer α} {S : Addr → Prop} {n : Nat} (ih : Upto p S n) {mem : List (Option (Obj α))} {stk : List (V α)} {v x : V α}
    {m : M α (V α)} (hm : m ⟨mem, stk⟩ = .ok v ⟨bump v mem, stk⟩) (hf : Fine mem S) (hc : Counted mem) (hd : Deno mem v x) (hl : Alive v mem) (hfx : FineVar S x) :
    Prints p mem x n 0 (m >>= fun r => putVar (format p n 0) r) ⟨mem, stk⟩ := by
  have hp := ih (bump v (bump v mem)) (stk ++ [v] ++ [v]) (stk.length + 1) v x 0 (bump_fine _ (bump_fine _ hf)) (bump_counted _ (bump_counted _ hc))
    (by simp) (bump_deno _ (bump_deno _ hd)) (bump_alive _ (bump_alive _ hl)) hfx
  rcases hp with ⟨d, h1, h2, h3⟩ | ⟨h3, h1⟩
  · exact .inl ⟨d, (bump_data _).1 ((bump_data _).1 h1), h2, (bind_eq hm).trans (putVar_bump hc hl h3)⟩
  · refine .inr ⟨(bind_eq hm).trans (putVar_diverge hl h3), fun ⟨d, g1, g2⟩ => h1 ⟨d, (bump_data _).2 ((bump_data _).2 g1), g2⟩⟩

theorem attach_text (ds : List (Data α)) (f : Data α → Bytes) : (ds.attach.map fun d => f d.1) = ds.map f := by
  simp

theorem attach_text2 (ds : List (Data α × Data α)) (f : Data α × Data α → Bytes) : (ds.attach.map fun d => f d.1) = ds.map f := by
  rw [List.attach_map_val]

theorem text_list (p : Printer α) (ind : Nat) (ds : List (Data α)) : (Data.list ds).text p ind = block ind (ds.map fun d => d.text p (ind + 2)) := by
  rw [Data.text, attach_text ds fun d => d.text p (ind + 2)]

theorem text_map (p : Printer α) (ind : Nat) (ds : List (Data α × Data α)) : (Data.map ds).text p ind =
    [123] ++ joined [44] (ds.map fun d => line (ind + 2) ++ d.1.text p 0 ++ [58, 32] ++ d.2.text p (ind + 2)) ++
      (if ds.length = 0 then [] else line ind) ++ [125] := by
  cases ds with
  | nil => simp [Data.text, joined]
  | cons c ds => rw [Data.text, attach_text2 (c :: ds) fun d => line (ind + 2) ++ d.1.text p 0 ++ [58, 32] ++ d.2.text p (ind + 2)]; simp

/-- The array of vars. -/
theorem var_prints [Env α] [DecidableEq α] {p : Printer α} {S : Addr → Prop} {n : Nat} (ih : Upto p S n) {mem : List (Option (Obj α))} {stk : List (V α)} {q : Nat} {v : V α}
    {a : Addr} {o : Obj α} (ind : Nat) (hf : Fine mem S) (hc : Counted mem) (hq : stk[q]? = some v) (hd : Deno mem v (.arr a))
    (h : mem[a]? = some (some o)) (hk : o.kind = .var) (hx : ∀ i < o.size, ∃ v, o.cells[i]? = some (.var v) ∧ FineVar S v) :
    Prints p mem (.arr a) (n + 1) ind (formatArray p (format p n) ind (.slot q)) ⟨mem, stk⟩ := by
  have hr : readLoc (.slot q) ⟨mem, stk⟩ = .ok v ⟨mem, stk⟩ := by simp [readLoc, hq]
  have hIs : Is mem a .var o.size o.cells := ⟨o.rc, by rw [h, ← hk]⟩
  have hx' : ∀ i, ∃ w, i < o.size → o.cells[i]? = some (.var w) ∧ FineVar S w := by
    intro i
    by_cases hi : i < o.size
    · obtain ⟨w, hw⟩ := hx i hi
      exact ⟨w, fun _ => hw⟩
    · exact ⟨.nil, fun h => absurd h hi⟩
  choose x hx using hx'
  have hst := steps (P := fun i d => IsData mem (x i) d ∧ d.depth ≤ n) (s := ⟨mem, stk⟩) (n := o.size)
    (f := fun i => do
      let y ← withVar (← index (.slot q) i) (format p n (ind + 2))
      pure (List.replicate (ind + 2) 32 ++ y ++ comma i o.size ++ [10]))
    (g := fun i d => List.replicate (ind + 2) 32 ++ d.text p (ind + 2) ++ comma i o.size ++ [10]) (by
      intro i hi
      obtain ⟨h1, h2⟩ := hx i hi
      rcases elem_prints ih (ind + 2) hf hc hq hd hIs (.inl rfl) hi h1 rfl h2 with ⟨d, g1, g2, g3⟩ | ⟨g3, g1⟩
      · left
        refine ⟨d, ⟨g1, g2⟩, ?_⟩
        exact bind_bind_eq g3 _
      · right
        refine ⟨?_, g1⟩
        exact bind_bind_diverge g3 _)
  have e : ∀ r : R α Bytes, putLoop (fun i => do
      let y ← withVar (← index (.slot q) i) (format p n (ind + 2))
      pure (List.replicate (ind + 2) 32 ++ y ++ comma i o.size ++ [10])) 0 o.size ⟨mem, stk⟩ = r →
      formatArray p (format p n) ind (.slot q) ⟨mem, stk⟩ = match r with
        | .ok t s => .ok ([91, 10] ++ t ++ List.replicate ind 32 ++ [93]) s
        | .thrown e s => .thrown e s
        | .ub u => .ub u
        | .abort => .abort
        | .diverge => .diverge := by
    intro r hr'
    unfold formatArray
    rw [bind_eq hr, bind_eq (atypeV_deno (s := ⟨mem, stk⟩) hd h), hk]
    simp only
    rw [bind_eq (sizeV_deno (s := ⟨mem, stk⟩) hd hIs), bind_run, M.bind, hr']
    cases r <;> rfl
  rcases hst with ⟨t, h1, h2⟩ | ⟨h2, i, hi, h1⟩
  · left
    refine ⟨.list ((List.range' 0 o.size).map t), ?_, ?_, ?_⟩
    · refine .list (v := x) h hk (by simp) (fun i hi => (hx i (by simpa using hi)).1) fun i d hi => ?_
      have hlt : i < o.size := by simpa using (List.getElem?_eq_some_iff.1 hi).1
      rw [List.getElem?_map, List.getElem?_range' hlt] at hi
      simp at hi
      subst hi
      exact (h1 i hlt).1
    · rw [depth_list_le]
      intro d hd
      obtain ⟨i, hi, rfl⟩ := List.mem_map.1 hd
      exact (h1 i (by simpa using hi)).2
    · rw [e _ h2, text_list, List.map_map]
      simp only
      rw [lines_block ind o.size fun i => (t i).text p (ind + 2)]
      rfl
  · right
    refine ⟨e _ h2, ?_⟩
    rintro ⟨d, g1, g2⟩
    obtain ⟨ds, rfl, g3, g4⟩ := data_var g1 h hk
    obtain ⟨y, hy⟩ : ∃ y, ds[i]? = some y := ⟨_, List.getElem?_eq_getElem (by omega)⟩
    exact h1 ⟨y, g4 i y _ hy (hx i hi).1, (depth_list_le.1 g2) y (List.mem_of_getElem? hy)⟩

/-- The map. -/
theorem pair_prints [Env α] [DecidableEq α] {p : Printer α} {S : Addr → Prop} {n : Nat} (ih : Upto p S n) {mem : List (Option (Obj α))} {stk : List (V α)} {q : Nat} {v : V α}
    {a : Addr} {o : Obj α} (ind : Nat) (hf : Fine mem S) (hc : Counted mem) (hq : stk[q]? = some v) (hd : Deno mem v (.arr a))
    (h : mem[a]? = some (some o)) (hk : o.kind = .pair) (hx : ∀ i < o.size, ∃ u v, o.cells[i]? = some (.pair u v) ∧ FineVar S u ∧ FineVar S v) :
    Prints p mem (.arr a) (n + 1) ind (formatArray p (format p n) ind (.slot q)) ⟨mem, stk⟩ := by
  have hr : readLoc (.slot q) ⟨mem, stk⟩ = .ok v ⟨mem, stk⟩ := by simp [readLoc, hq]
  have hIs : Is mem a .pair o.size o.cells := ⟨o.rc, by rw [h, ← hk]⟩
  have hx' : ∀ i, ∃ z : V α × V α, i < o.size → o.cells[i]? = some (.pair z.1 z.2) ∧ FineVar S z.1 ∧ FineVar S z.2 := by
    intro i
    by_cases hi : i < o.size
    · obtain ⟨u, w, hw⟩ := hx i hi
      exact ⟨(u, w), fun _ => hw⟩
    · exact ⟨(.nil, .nil), fun h => absurd h hi⟩
  choose x hx using hx'
  have hst := steps2 (P := fun i d => (IsData mem (x i).1 d.1 ∧ d.1.depth ≤ n) ∧ IsData mem (x i).2 d.2 ∧ d.2.depth ≤ n) (s := ⟨mem, stk⟩) (n := o.size)
    (f := fun i => do
      let k ← putVar (format p n 0) (← keyAt v i)
      let y ← withVar (← index (.slot q) i) (format p n (ind + 2))
      pure ([10] ++ List.replicate (ind + 2) 32 ++ k ++ [58, 32] ++ y ++ comma i o.size))
    (g := fun i d => [10] ++ List.replicate (ind + 2) 32 ++ d.1.text p 0 ++ [58, 32] ++ d.2.text p (ind + 2) ++ comma i o.size) (by
      intro i hi
      obtain ⟨h1, h2, h3⟩ := hx i hi
      have hu := h2.alive hf
      rcases copy_prints ih (keyAt_bump (stk := stk) hd hIs hi h1 hu) hf hc (.self h2.plain) hu h2 with ⟨d, g1, g2, g3⟩ | ⟨g3, g1⟩
      · rcases elem_prints ih (ind + 2) hf hc hq hd hIs (.inr rfl) hi h1 rfl h3 with ⟨d', g1', g2', g3'⟩ | ⟨g3', g1'⟩
        · left
          refine ⟨(d, d'), ⟨⟨g1, g2⟩, g1', g2'⟩, ?_⟩
          exact (bind_bind_eq g3 _).trans (bind_bind_eq g3' _)
        · right
          refine ⟨?_, fun ⟨e, _, e2⟩ => g1' ⟨_, e2⟩⟩
          exact (bind_bind_eq g3 _).trans (bind_bind_diverge g3' _)
      · right
        refine ⟨?_, fun ⟨e, e1, _⟩ => g1 ⟨_, e1⟩⟩
        exact bind_bind_diverge g3 _)
  have e : ∀ r : R α Bytes, putLoop (fun i => do
      let k ← putVar (format p n 0) (← keyAt v i)
      let y ← withVar (← index (.slot q) i) (format p n (ind + 2))
      pure ([10] ++ List.replicate (ind + 2) 32 ++ k ++ [58, 32] ++ y ++ comma i o.size)) 0 o.size ⟨mem, stk⟩ = r →
      formatArray p (format p n) ind (.slot q) ⟨mem, stk⟩ = match r with
        | .ok t s => .ok ([123] ++ t ++ (if o.size = 0 then [] else [10] ++ List.replicate ind 32) ++ [125]) s
        | .thrown e s => .thrown e s
        | .ub u => .ub u
        | .abort => .abort
        | .diverge => .diverge := by
    intro r hr'
    unfold formatArray
    rw [bind_eq hr, bind_eq (atypeV_deno (s := ⟨mem, stk⟩) hd h), hk]
    simp only
    rw [bind_eq (sizeV_deno (s := ⟨mem, stk⟩) hd hIs), bind_run, M.bind, hr']
    cases r <;> rfl
  rcases hst with ⟨t, h1, h2⟩ | ⟨h2, i, hi, h1⟩
  · left
    have hgt : ∀ (i : Nat) (d : Data α × Data α), ((List.range' 0 o.size).map t)[i]? = some d → i < o.size ∧ d = t i := by
      intro i d hi
      have hlt : i < o.size := by simpa using (List.getElem?_eq_some_iff.1 hi).1
      rw [List.getElem?_map, List.getElem?_range' hlt] at hi
      simp at hi
      exact ⟨hlt, hi.symm⟩
    refine ⟨.map ((List.range' 0 o.size).map t), ?_, ?_, ?_⟩
    · refine .map (u := fun i => (x i).1) (v := fun i => (x i).2) h hk (by simp) (fun i hi => (hx i (by simpa using hi)).1) (fun i d hi => ?_) fun i d hi => ?_
      · obtain ⟨hlt, rfl⟩ := hgt i d hi
        exact (h1 i hlt).1.1
      · obtain ⟨hlt, rfl⟩ := hgt i d hi
        exact (h1 i hlt).2.1
    · rw [depth_map_le]
      intro d hd
      obtain ⟨i, hi, rfl⟩ := List.mem_map.1 hd
      exact ⟨(h1 i (by simpa using hi)).1.2, (h1 i (by simpa using hi)).2.2⟩
    · rw [e _ h2, text_map, List.map_map]
      simp only
      rw [members_joined (fun i => [10] ++ List.replicate (ind + 2) 32 ++ (t i).1.text p 0 ++ [58, 32] ++ (t i).2.text p (ind + 2)) o.size 0 o.size (by omega)]
      simp [line]
      rfl
  · right
    refine ⟨e _ h2, ?_⟩
    rintro ⟨d, g1, g2⟩
    obtain ⟨ds, rfl, g3, g4⟩ := data_pair g1 h hk
    obtain ⟨y, hy⟩ : ∃ y, ds[i]? = some y := ⟨_, List.getElem?_eq_getElem (by omega)⟩
    have h5 := g4 i y _ _ hy (hx i hi).1
    have h6 := (depth_map_le.1 g2) y (List.mem_of_getElem? hy)
    exact h1 ⟨y, ⟨h5.1, h6.1⟩, h5.2, h6.2⟩

/-- The array of numbers. -/
theorem nums_prints [Env α] [DecidableEq α] {p : Printer α} {S : Addr → Prop} {n : Nat} {mem : List (Option (Obj α))} {stk : List (V α)} {q : Nat} {v : V α}
    {a : Addr} {o : Obj α} (ind : Nat) (hc : Counted mem) (hq : stk[q]? = some v) (hv : Alive v mem) (hd : Deno mem v (.arr a))
    (h : mem[a]? = some (some o)) (hk : Scalar o.kind) (hch : o.kind ≠ .char) (ih : Upto p S n) (hf : Fine mem S) {xs : List α} (hx : Elements o o.kind xs) :
    Prints p mem (.arr a) (n + 1) ind (formatArray p (format p n) ind (.slot q)) ⟨mem, stk⟩ := by
  have hr : readLoc (.slot q) ⟨mem, stk⟩ = .ok v ⟨mem, stk⟩ := by simp [readLoc, hq]
  have hIs : Is mem a o.kind o.size o.cells := ⟨o.rc, by rw [h]⟩
  have hl : Alive (.arr a : V α) mem := fun b hb => by cases hb; exact hIs.live
  have hn := hx.2.1
  have e : ∀ r : R α Bytes, putLoop (fun i => do
      let x ← putVar (format p n 0) (← at' v i)
      pure ((if i = 0 then [] else [44, 32]) ++ x)) 0 o.size ⟨mem, stk⟩ = r →
      formatArray p (format p n) ind (.slot q) ⟨mem, stk⟩ = match r with
        | .ok t s => .ok ([91] ++ t ++ [93]) s
        | .thrown e s => .thrown e s
        | .ub u => .ub u
        | .abort => .abort
        | .diverge => .diverge := by
    intro r hr'
    unfold formatArray
    rw [bind_eq hr, bind_eq (atypeV_deno (s := ⟨mem, stk⟩) hd h)]
    have hk1 := hk.1.1
    have hk2 := hk.1.2
    have hk3 := hk.2
    cases hkk : o.kind with
    | var => exact absurd hkk hk1
    | pair => exact absurd hkk hk2
    | cdouble => exact absurd hkk hk3
    | char => exact absurd hkk hch
    | _ =>
      simp only
      rw [bind_eq (sizeV_deno (s := ⟨mem, stk⟩) hd hIs), bind_run, M.bind, hr']
      cases r <;> rfl
  have one : ∀ i < o.size, ∃ x, xs[i]? = some x ∧ Prints p mem (.num o.kind x) n 0 (at' v i >>= fun r => putVar (format p n 0) r) ⟨mem, stk⟩ := by
    intro i hi
    obtain ⟨x, hxi⟩ : ∃ x, xs[i]? = some x := ⟨_, List.getElem?_eq_getElem (by omega)⟩
    exact ⟨x, hxi, copy_prints (v := .ref a i) ih (at_bump hc hv hIs.live hd i) hf hc (.num hIs hk.1 hk.2 (hx.2.2 i x hxi))
      (fun b hb => by cases hb; exact hIs.live) hk⟩
  have tx : ∀ {x : α} {d : Data α}, IsData mem (.num o.kind x) d → d = .num o.kind x := by
    intro x d h
    cases h
    rfl
  by_cases hd1 : (Data.nums o.kind xs).depth ≤ n + 1
  · left
    refine ⟨.nums o.kind xs, .nums h hk hch hx, hd1, ?_⟩
    have hrun := putLoop_run (s := ⟨mem, stk⟩) (f := fun i => do
        let x ← putVar (format p n 0) (← at' v i)
        pure ((if i = 0 then [] else [44, 32]) ++ x)) (t := fun i => (if i = 0 then [] else [44, 32]) ++ textAt (p.num o.kind) xs i)
        (n := o.size) (i := 0) (by
      intro i _ hi
      obtain ⟨x, hxi, hp⟩ := one i (by omega)
      have hpos : 1 ≤ n := by
        cases xs with
        | nil => simp at hxi
        | cons y ys =>
          simp [Data.depth] at hd1
          omega
      rcases hp with ⟨d, g1, g2, g3⟩ | ⟨-, g1⟩
      · obtain rfl := tx g1
        rw [bind_bind_eq g3]
        simp only [textAt, hxi]
        have : (Data.num o.kind x).text p 0 = p.num o.kind x := by
          cases hkk : o.kind with
          | char => exact absurd hkk hch
          | _ => rw [Data.text]; simp
        rw [this]
        rfl
      · exact absurd ⟨_, .num hk, by simpa [Data.depth] using hpos⟩ g1)
    rw [e _ hrun]
    simp only
    have h2 := dense_joined (textAt (p.num o.kind) xs) o.size 0
    simp only [true_or, if_true, List.nil_append] at h2
    rw [h2, hn, ← map_range (p.num o.kind) xs, Data.text]
  · right
    have hn0 : n = 0 ∧ 0 < o.size := by
      cases xs with
      | nil => simp [Data.depth] at hd1
      | cons y ys =>
        simp [Data.depth] at hd1
        refine ⟨by omega, by rw [hn]; simp⟩
    obtain ⟨rfl, hpos⟩ := hn0
    refine ⟨e _ (putLoop_diverge (fun i _ hi => .inr ?_) ⟨0, by omega, by omega, ?_⟩), ?_⟩
    · obtain ⟨x, hxi, hp⟩ := one i (by omega)
      rcases hp with ⟨d, g1, g2, g3⟩ | ⟨g3, g1⟩
      · have := data_depth_pos d
        omega
      · exact bind_bind_diverge g3 _
    · obtain ⟨x, hxi, hp⟩ := one 0 hpos
      rcases hp with ⟨d, g1, g2, g3⟩ | ⟨g3, g1⟩
      · have := data_depth_pos d
        omega
      · exact bind_bind_diverge g3 _
    · rintro ⟨d, g1, g2⟩
      obtain ⟨ys, rfl, g3⟩ := data_nums g1 h hk hch
      cases ys with
      | nil => simp at g3; omega
      | cons y ys => simp [Data.depth] at g2

theorem str_prints [Env α] [DecidableEq α] {p : Printer α} {n : Nat} {mem : List (Option (Obj α))} {stk : List (V α)} {q : Nat} {v : V α}
    {a : Addr} {o : Obj α} (ind : Nat) (hq : stk[q]? = some v) (hd : Deno mem v (.arr a)) (h : mem[a]? = some (some o)) (hk : o.kind = .char)
    {xs : List α} (hz : ∀ x ∈ xs, x ≠ Env.nul) (hx : ∀ (i : Nat) (x : α), (xs ++ [Env.nul])[i]? = some x → o.cells[i]? = some (.raw (some x))) :
    Prints p mem (.arr a) (n + 1) ind (formatArray p (format p n) ind (.slot q)) ⟨mem, stk⟩ := by
  left
  have hr : readLoc (.slot q) ⟨mem, stk⟩ = .ok v ⟨mem, stk⟩ := by simp [readLoc, hq]
  refine ⟨.str xs, .str h hk hz hx, by simp [Data.depth], ?_⟩
  have hlen : xs.length < o.cells.length := (List.getElem?_eq_some_iff.1 (hx xs.length Env.nul (by simp))).1
  unfold formatArray
  rw [bind_eq hr, bind_eq (atypeV_deno (s := ⟨mem, stk⟩) hd h), hk]
  simp only
  rw [bind_eq (charPtr_deno (s := ⟨mem, stk⟩) hd)]
  simp only
  rw [bind_eq (obj_eq (s := ⟨mem, stk⟩) h), bind_eq (putChars_run p (s := ⟨mem, stk⟩) h xs 0 _ (by omega) hz (by simpa using hx)), Data.text]
  rfl

theorem cplx_prints [Env α] [DecidableEq α] {p : Printer α} {n : Nat} {mem : List (Option (Obj α))} {stk : List (V α)} {q : Nat} {v : V α}
    {a : Addr} {o : Obj α} (ind : Nat) (hq : stk[q]? = some v) (hd : Deno mem v (.arr a)) (h : mem[a]? = some (some o))
    {xs : List α} (hx : Elements o .cdouble xs) : Prints p mem (.arr a) (n + 1) ind (formatArray p (format p n) ind (.slot q)) ⟨mem, stk⟩ := by
  left
  have hr : readLoc (.slot q) ⟨mem, stk⟩ = .ok v ⟨mem, stk⟩ := by simp [readLoc, hq]
  have hIs : Is mem a o.kind o.size o.cells := ⟨o.rc, by rw [h]⟩
  refine ⟨.cplx a xs, .cplx h hx, by simp [Data.depth], ?_⟩
  unfold formatArray
  rw [bind_eq hr, bind_eq (atypeV_deno (s := ⟨mem, stk⟩) hd h), hx.1]
  simp only
  rw [bind_eq (charPtr_deno (s := ⟨mem, stk⟩) hd)]
  simp only
  rw [bind_eq (sizeV_deno (s := ⟨mem, stk⟩) hd hIs), hx.2.1]
  by_cases h1 : xs.length = 1
  · obtain ⟨x, rfl⟩ := List.length_eq_one_iff.1 h1
    simp only [h1, if_true]
    rw [bind_eq (rawAt_run (s := ⟨mem, stk⟩) h (hx.2.2 0 x rfl)), Data.text]
    rfl
  · rw [if_neg h1]
    rw [bind_eq (putLoop_run (f := fun i => (pure (List.replicate (ind + 2) 32 ++ p.ptr a i ++ comma i xs.length ++ [10]) : M α Bytes)) (t := fun i => List.replicate (ind + 2) 32 ++ p.ptr a i ++ comma i xs.length ++ [10]) (fun _ _ _ => rfl))]
    rw [pure_run, lines_block ind xs.length (p.ptr a), Data.text, List.range_eq_range']
    intro x hx'
    rw [hx'] at h1
    simp at h1

/-- Printing anything that is fine. -/
theorem format_tot [Env α] [DecidableEq α] (p : Printer α) (S : Addr → Prop) : ∀ n, Upto p S n := by
  intro n
  induction n with
  | zero =>
    intro mem stk q v w ind _ _ _ _ _ _
    refine .inr ⟨rfl, ?_⟩
    rintro ⟨d, -, h⟩
    have := data_depth_pos d
    omega
  | succ n ih =>
    intro mem stk q v w ind hf hc hq hd hv hw
    have hr : readLoc (.slot q) ⟨mem, stk⟩ = .ok v ⟨mem, stk⟩ := by simp [readLoc, hq]
    cases w with
    | nil =>
      left
      refine ⟨.nil, .nil, by simp [Data.depth], ?_⟩
      obtain ⟨h1, h2⟩ := deno_nil (s := ⟨mem, stk⟩) hd
      rw [format, bind_eq hr, bind_eq h1]
      simp only
      rw [bind_eq h2, Data.text]
      rfl
    | num k x =>
      left
      have hk : Scalar k := hw
      refine ⟨.num k x, .num hk, by simp [Data.depth], ?_⟩
      obtain ⟨h1, h2⟩ := deno_num (s := ⟨mem, stk⟩) hd hk.2
      rw [format, bind_eq hr, bind_eq h1]
      cases k with
      | var => exact absurd rfl hk.1.1
      | pair => exact absurd rfl hk.1.2
      | cdouble => exact absurd rfl hk.2
      | char =>
        simp only
        rw [bind_eq h2, Data.text]
        rfl
      | _ =>
        simp only
        rw [bind_eq h2, Data.text]
        · rfl
        · simp
    | bad k => exact absurd hw (by simp [FineVar])
    | ref b j => exact absurd hw (by simp [FineVar])
    | arr a =>
      obtain ⟨o, ho, hx⟩ := hf a hw
      obtain ⟨o', g1, g2, g3, g4⟩ := bump_obj v ho
      have hq1 : (stk ++ [v])[stk.length]? = some v := by simp
      have hd1 : Deno (bump v mem) v (.arr a) := bump_deno v hd
      have hf1 := bump_fine v hf
      have hc1 := bump_counted v hc
      have hv1 := bump_alive v hv
      have key : Prints p (bump v mem) (.arr a) (n + 1) ind (formatArray p (format p n) ind (.slot stk.length)) ⟨bump v mem, stk ++ [v]⟩ := by
        by_cases hk1 : o.kind = .var
        · exact var_prints ih ind hf1 hc1 hq1 hd1 g1 (g2.trans hk1) (by rw [g3, g4]; exact hx.1 hk1)
        by_cases hk2 : o.kind = .pair
        · exact pair_prints ih ind hf1 hc1 hq1 hd1 g1 (g2.trans hk2) (by rw [g3, g4]; exact hx.2.1 hk2)
        by_cases hk3 : o.kind = .char
        · obtain ⟨xs, h1, h2⟩ := hx.2.2.1 hk3
          exact str_prints ind hq1 hd1 g1 (g2.trans hk3) h1 (by rw [g4]; exact h2)
        obtain ⟨xs, h1⟩ := hx.2.2.2 ⟨hk1, hk2⟩ hk3
        by_cases hk4 : o.kind = .cdouble
        · exact cplx_prints ind hq1 hd1 g1 (xs := xs) (by unfold Elements at h1 ⊢; rw [g2, g3, g4]; rw [hk4] at h1; exact ⟨hk4, h1.2⟩)
        · exact nums_prints ind hc1 hq1 hv1 hd1 g1 (by rw [g2]; exact ⟨⟨hk1, hk2⟩, hk4⟩) (by rw [g2]; exact hk3) ih hf1 (xs := xs)
            (by unfold Elements at h1 ⊢; rw [g2, g3, g4]; exact h1)
      have e := format_array p (n := n) (ind := ind) hq hd hv
      rcases key with ⟨d, h1, h2, h3⟩ | ⟨h3, h1⟩
      · exact .inl ⟨d, (bump_data v).1 h1, h2, e.trans (with_bump hc hv h3)⟩
      · exact .inr ⟨e.trans (with_diverge h3), fun ⟨d, g1, g2⟩ => h1 ⟨d, (bump_data v).2 g1, g2⟩⟩

/-! ## The data of a var is unique -/

theorem str_unique [Env α] {o : Obj α} : ∀ (xs ys : List α) (i : Nat), (∀ x ∈ xs, x ≠ Env.nul) → (∀ x ∈ ys, x ≠ Env.nul) →
    (∀ (j : Nat) (x : α), (xs ++ [Env.nul])[j]? = some x → o.cells[i + j]? = some (.raw (some x))) →
    (∀ (j : Nat) (x : α), (ys ++ [Env.nul])[j]? = some x → o.cells[i + j]? = some (.raw (some x))) → xs = ys := by
  intro xs
  induction xs with
  | nil =>
    intro ys i _ hy h1 h2
    cases ys with
    | nil => rfl
    | cons y ys =>
      have a1 := h1 0 Env.nul (by simp)
      have a2 := h2 0 y (by simp)
      rw [a1] at a2
      simp at a2
      exact absurd a2.symm (hy y (by simp))
  | cons x xs ih =>
    intro ys i hx hy h1 h2
    cases ys with
    | nil =>
      have a1 := h1 0 x (by simp)
      have a2 := h2 0 Env.nul (by simp)
      rw [a1] at a2
      simp at a2
      exact absurd a2 (hx x (by simp))
    | cons y ys =>
      have a1 := h1 0 x (by simp)
      have a2 := h2 0 y (by simp)
      rw [a1] at a2
      simp at a2
      subst a2
      rw [ih ys (i + 1) (fun z hz => hx z (by simp [hz])) (fun z hz => hy z (by simp [hz]))
        (fun j z hz => by rw [show i + 1 + j = i + (j + 1) by omega]; exact h1 (j + 1) z (by simpa using hz))
        (fun j z hz => by rw [show i + 1 + j = i + (j + 1) by omega]; exact h2 (j + 1) z (by simpa using hz))]

theorem elements_unique {o : Obj α} {k : Kind} {xs ys : List α} (h1 : Elements o k xs) (h2 : Elements o k ys) : xs = ys := by
  apply List.ext_getElem?
  intro i
  by_cases hi : i < o.size
  · obtain ⟨x, hx⟩ : ∃ x, xs[i]? = some x := ⟨_, List.getElem?_eq_getElem (by rw [← h1.2.1]; exact hi)⟩
    obtain ⟨y, hy⟩ : ∃ y, ys[i]? = some y := ⟨_, List.getElem?_eq_getElem (by rw [← h2.2.1]; exact hi)⟩
    have a1 := h1.2.2 i x hx
    rw [h2.2.2 i y hy] at a1
    simp at a1
    rw [hx, hy, a1]
  · rw [List.getElem?_eq_none (by rw [← h1.2.1]; omega), List.getElem?_eq_none (by rw [← h2.2.1]; omega)]

theorem data_unique [Env α] {mem : List (Option (Obj α))} {v : V α} {d : Data α} (h : IsData mem v d) : ∀ {d'}, IsData mem v d' → d = d' := by
  induction h with
  | nil =>
    intro d' h'
    cases h'
    rfl
  | num h =>
    intro d' h'
    cases h'
    rfl
  | @str a o xs h1 h2 h3 h4 =>
    intro d' h'
    cases h' with
    | str g1 g2 g3 g4 =>
      rw [h1] at g1
      cases g1
      rw [str_unique xs _ 0 h3 g3 (by simpa using h4) (by simpa using g4)]
    | nums g1 g2 g3 g4 =>
      rw [h1] at g1
      cases g1
      exact absurd (g4.1.symm.trans h2) g3
    | cplx g1 g4 =>
      rw [h1] at g1
      cases g1
      have := g4.1.symm.trans h2
      cases this
    | list g1 g2 | map g1 g2 =>
      rw [h1] at g1
      cases g1
      have := g2.symm.trans h2
      cases this
  | @nums a o k xs h1 h2 h3 h4 =>
    intro d' h'
    obtain ⟨ys, rfl, -⟩ := data_nums h' h1 (by rw [h4.1]; exact h2) (by rw [h4.1]; exact h3)
    cases h' with
    | nums g1 g2 g3 g4 =>
      rw [h1] at g1
      cases g1
      have := h4.1
      subst this
      rw [elements_unique h4 g4]
  | @cplx a o xs h1 h4 =>
    intro d' h'
    cases h' with
    | str g1 g2 | list g1 g2 | map g1 g2 =>
      rw [h1] at g1
      cases g1
      have := g2.symm.trans h4.1
      cases this
    | nums g1 g2 g3 g4 =>
      rw [h1] at g1
      cases g1
      exact absurd (g4.1.symm.trans h4.1) g2.2
    | cplx g1 g4 =>
      rw [h1] at g1
      cases g1
      rw [elements_unique h4 g4]
  | @list a o ds v h1 h2 h3 h4 h5 ih =>
    intro d' h'
    obtain ⟨es, rfl, g3, g4⟩ := data_var h' h1 h2
    congr 1
    apply List.ext_getElem?
    intro i
    by_cases hi : i < ds.length
    · obtain ⟨x, hx⟩ : ∃ x, ds[i]? = some x := ⟨_, List.getElem?_eq_getElem hi⟩
      obtain ⟨y, hy⟩ : ∃ y, es[i]? = some y := ⟨_, List.getElem?_eq_getElem (by omega)⟩
      rw [hx, hy, ih i x hx (g4 i y _ hy (h4 i hi))]
    · rw [List.getElem?_eq_none (by omega), List.getElem?_eq_none (by omega)]
  | @map a o ds u v h1 h2 h3 h4 h5 h6 ih1 ih2 =>
    intro d' h'
    obtain ⟨es, rfl, g3, g4⟩ := data_pair h' h1 h2
    congr 1
    apply List.ext_getElem?
    intro i
    by_cases hi : i < ds.length
    · obtain ⟨x, hx⟩ : ∃ x, ds[i]? = some x := ⟨_, List.getElem?_eq_getElem hi⟩
      obtain ⟨y, hy⟩ : ∃ y, es[i]? = some y := ⟨_, List.getElem?_eq_getElem (by omega)⟩
      have := g4 i y _ _ hy (h4 i hi)
      rw [hx, hy, Prod.ext (ih1 i x hx this.1) (ih2 i x hx this.2)]
    · rw [List.getElem?_eq_none (by omega), List.getElem?_eq_none (by omega)]

theorem data_fine [Env α] (mem : List (Option (Obj α))) : Fine mem fun a => ∃ d, IsData mem (.arr a) d := by
  have hv : ∀ {v : V α} {d : Data α}, IsData mem v d → FineVar (fun a => ∃ d, IsData mem (.arr a) d) v := by
    intro v d h
    cases v with
    | nil => trivial
    | num k x => cases h; assumption
    | arr a => exact ⟨d, h⟩
    | bad k => cases h
    | ref b j => cases h
  rintro a ⟨d, h⟩
  cases h with
  | @str _ o xs h1 h2 h3 h4 =>
    refine ⟨o, h1, ?_, ?_, fun _ => ⟨xs, h3, h4⟩, fun _ h => absurd h2 h⟩ <;> intro hk <;> rw [h2] at hk <;> cases hk
  | @nums _ o k xs h1 h2 h3 h4 =>
    refine ⟨o, h1, ?_, ?_, ?_, fun _ _ => ⟨xs, by rw [h4.1]; exact h4⟩⟩ <;> intro hk <;> rw [h4.1] at hk
    · exact absurd hk h2.1.1
    · exact absurd hk h2.1.2
    · exact absurd hk h3
  | @cplx _ o xs h1 h4 =>
    refine ⟨o, h1, ?_, ?_, ?_, fun _ _ => ⟨xs, by rw [h4.1]; exact h4⟩⟩ <;> intro hk <;> rw [h4.1] at hk <;> cases hk
  | @list _ o ds v h1 h2 h3 h4 h5 =>
    refine ⟨o, h1, fun _ i hi => ?_, ?_, ?_, fun hk _ => absurd h2 hk.1⟩
    · obtain ⟨x, hx⟩ : ∃ x, ds[i]? = some x := ⟨_, List.getElem?_eq_getElem (by omega)⟩
      exact ⟨v i, h4 i (by omega), hv (h5 i x hx)⟩
    all_goals intro hk; rw [h2] at hk; cases hk
  | @map _ o ds u v h1 h2 h3 h4 h5 h6 =>
    refine ⟨o, h1, ?_, fun _ i hi => ?_, ?_, fun hk _ => absurd h2 hk.2⟩
    · intro hk
      rw [h2] at hk
      cases hk
    · obtain ⟨x, hx⟩ : ∃ x, ds[i]? = some x := ⟨_, List.getElem?_eq_getElem (by omega)⟩
      exact ⟨u i, v i, h4 i (by omega), hv (h5 i x hx), hv (h6 i x hx)⟩
    · intro hk
      rw [h2] at hk
      cases hk

end Libube.Mem

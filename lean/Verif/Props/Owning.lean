import Verif.Model.Owning

/-! # C145: functors that own memory -/

namespace Libube.OwningProps

open Owning

/-- The block has been allocated and not freed. -/
def Allocated (s : State) (a : Nat) : Prop := ∃ o, s.blocks[a]? = some (some o)

/-- The functor points to the block, itself or by way of its `DFTImpl`. -/
def Owns (s : State) (f : Fun) (a : Nat) : Prop := f.ptr = a ∨ s.blocks[f.ptr]? = some (some (.impl (some a)))

/-- The functors of a statement exist, those of an assignment are of the same kind, and a transform that is called has a size for which there is one. -/
def Proper (s : State) : Op → Prop
  | .copy i => i < s.funs.length
  | .assign i j => ∃ f g, s.funs[i]? = some f ∧ s.funs[j]? = some g ∧ f.dft = g.dft
  | .use i => ∃ f, s.funs[i]? = some f ∧ s.blocks[f.ptr]? ≠ some (some (.impl none))
  | _ => True

/-- No functor is copied. -/
def single : Op → Bool
  | .copy _ | .assign _ _ => false
  | _ => true

/-- The transform is not of single precision numbers: the constructor throws. -/
def throws : Op → Bool
  | .dft _ _ t => t != .float && t != .cfloat
  | _ => false

/-- The states that programs get to that copy no functor.  `L` are the blocks allocated by constructors that have thrown. -/
inductive Reach : List Nat → State → Prop
  | start : Reach [] start
  | step {L : List Nat} {s s' : State} (o : Op) : Reach L s → Proper s o → single o = true → step o s = .ok s' →
      Reach (if throws o then L ++ [s.blocks.length] else L) s'

/-- What a functor points to is there. -/
def Alive (m : Blocks) (f : Fun) : Prop := if f.dft then ∃ c, m[f.ptr]? = some (some (.impl c)) else m[f.ptr]? = some (some .regex)

/-- Transforms have their own memory of the library. -/
structure Sep (m : Blocks) : Prop where
  conf : ∀ (p a : Nat), m[p]? = some (some (.impl (some a))) → m[a]? = some (some .config)
  inj : ∀ (p q a : Nat), m[p]? = some (some (.impl (some a))) → m[q]? = some (some (.impl (some a))) → p = q

structure Inv (L : List Nat) (s : State) : Prop where
  alive : ∀ f ∈ s.funs, Alive s.blocks f
  sep : Sep s.blocks
  nodup : (s.funs.map Fun.ptr).Nodup
  exact : ∀ (a : Nat) (o : Block), s.blocks[a]? = some (some o) → (∃ f ∈ s.funs, Owns s f a) ∨ a ∈ L
  lost : ∀ a ∈ L, s.blocks[a]? = some (some (.impl none)) ∧ ∀ f ∈ s.funs, f.ptr ≠ a
  count : s.count = transforms s.funs
  cleaned : ∀ n ∈ s.cleaned, n = 0

theorem set_set {m : Blocks} {a p b : Nat} (ha : a < m.length) (hp : p < m.length) : ((m.set a none).set p none)[b]? = if b = p ∨ b = a then some none else m[b]? := by
  by_cases h1 : b = p
  · subst h1
    rw [List.getElem?_set_self (by simpa using hp), if_pos (.inl rfl)]
  · rw [List.getElem?_set_ne (Ne.symm h1)]
    by_cases h2 : b = a
    · subst h2
      rw [List.getElem?_set_self ha, if_pos (.inr rfl)]
    · rw [List.getElem?_set_ne (Ne.symm h2), if_neg (by tauto)]

theorem lt_of {m : Blocks} {a : Nat} {o : Option Block} (h : m[a]? = some o) : a < m.length := (List.getElem?_eq_some_iff.1 h).1

/-- A functor whose memory is there can be destroyed, and exactly its blocks are freed. -/
theorem destroy_ok {s : State} {f : Fun} (hs : Sep s.blocks) (hf : Alive s.blocks f) :
    ∃ s', destroy f s = .ok s' ∧ s'.funs = s.funs ∧ (∀ b, Owns s f b → s'.blocks[b]? = some none) ∧ (∀ b, ¬ Owns s f b → s'.blocks[b]? = s.blocks[b]?) ∧
      s'.count = (if f.dft then s.count - 1 else s.count) ∧
      s'.cleaned = (if f.dft ∧ s.count - 1 = 0 then s.cleaned ++ [transforms s.funs] else s.cleaned) := by
  unfold destroy Alive at *
  by_cases hd : f.dft = true
  · simp only [hd, if_true, true_and] at hf ⊢
    obtain ⟨c, hc⟩ := hf
    have hl := lt_of hc
    cases c with
    | none =>
      refine ⟨{ s with blocks := s.blocks.set f.ptr none, count := s.count - 1, cleaned := if s.count - 1 = 0 then s.cleaned ++ [transforms s.funs] else s.cleaned },
        by simp only [hc, Owning.free, Outcome.bind_ok], rfl, ?_, ?_, rfl, rfl⟩
      · rintro b (rfl | hb)
        · exact List.getElem?_set_self hl
        · rw [hc] at hb; cases hb
      · intro b hb
        exact List.getElem?_set_ne fun h => hb (.inl h)
    | some a =>
      have ha := hs.conf _ _ hc
      have hne : a ≠ f.ptr := by rintro rfl; rw [hc] at ha; cases ha
      have hc' : (s.blocks.set a none)[f.ptr]? = some (some (.impl (some a))) := by rw [List.getElem?_set_ne hne]; exact hc
      refine ⟨{ s with blocks := (s.blocks.set a none).set f.ptr none, count := s.count - 1, cleaned := if s.count - 1 = 0 then s.cleaned ++ [transforms s.funs] else s.cleaned },
        by simp only [hc, Owning.free, ha, hc', Outcome.bind_ok], rfl, ?_, ?_, rfl, rfl⟩
      · rintro b (rfl | hb)
        · simp only [set_set (lt_of ha) hl, true_or, if_true]
        · rw [hc] at hb
          cases hb
          simp only [set_set (lt_of ha) hl, or_true, if_true]
      · intro b hb
        simp only [set_set (lt_of ha) hl]
        rw [if_neg]
        rintro (rfl | rfl)
        · exact hb (.inl rfl)
        · exact hb (.inr hc)
  · simp only [hd, Bool.false_eq_true, if_false, false_and] at hf ⊢
    refine ⟨{ s with blocks := s.blocks.set f.ptr none }, by simp only [hf, Owning.free, Outcome.bind_ok], rfl, ?_, ?_, rfl, rfl⟩
    · rintro b (rfl | hb)
      · exact List.getElem?_set_self (lt_of hf)
      · rw [hf] at hb; cases hb
    · intro b hb
      exact List.getElem?_set_ne fun h => hb (.inl h)

/-- A functor does not point to the memory of the library. -/
theorem Alive.not_config {m : Blocks} {f : Fun} (h : Alive m f) : m[f.ptr]? ≠ some (some .config) := by
  unfold Alive at h
  split at h
  · obtain ⟨c, hc⟩ := h
    rw [hc]
    simp
  · rw [h]
    simp

/-- What is left after that. -/
theorem sep_after {s s' : State} {f : Fun} (hs : Sep s.blocks) (hf : Alive s.blocks f) (h1 : ∀ b, Owns s f b → s'.blocks[b]? = some none)
    (h2 : ∀ b, ¬ Owns s f b → s'.blocks[b]? = s.blocks[b]?) :
    Sep s'.blocks ∧ (∀ b o, s'.blocks[b]? = some (some o) → s.blocks[b]? = some (some o) ∧ ¬ Owns s f b) ∧
      ∀ g, Alive s.blocks g → g.ptr ≠ f.ptr → Alive s'.blocks g ∧ s'.blocks[g.ptr]? = s.blocks[g.ptr]? := by
  have back : ∀ b o, s'.blocks[b]? = some (some o) → s.blocks[b]? = some (some o) ∧ ¬ Owns s f b := by
    intro b o hb
    by_cases ho : Owns s f b
    · rw [h1 b ho] at hb; cases hb
    · rw [h2 b ho] at hb; exact ⟨hb, ho⟩
  refine ⟨⟨fun p a hp => ?_, fun p q a hp hq => hs.inj p q a (back p _ hp).1 (back q _ hq).1⟩, back, fun g hg hne => ?_⟩
  · obtain ⟨hp, hn⟩ := back p _ hp
    have ha := hs.conf p a hp
    rw [h2 a]
    · exact ha
    · rintro (h | h)
      · rw [← h] at ha
        exact hf.not_config ha
      · exact hn (.inl (hs.inj _ _ _ h hp))
  · have hno : ¬ Owns s f g.ptr := by
      rintro (h | h)
      · exact hne h.symm
      · exact hg.not_config (hs.conf _ _ h)
    refine ⟨?_, h2 _ hno⟩
    unfold Alive
    rw [h2 _ hno]
    exact hg

theorem leave_some {s : State} {fs : List Fun} {f : Fun} (h : s.funs = fs ++ [f]) : Owning.step .leave s = destroy f { s with funs := fs } := by
  simp only [Owning.step, h, List.getLast?_append, List.getLast?_singleton, Option.some_or, List.dropLast_concat]

theorem inv_leave {L : List Nat} {s : State} (h : Inv L s) : ∃ s', Owning.step .leave s = .ok s' ∧ Inv L s' := by
  rcases List.eq_nil_or_concat s.funs with hv | ⟨fs, f, hv⟩
  · exact ⟨s, by simp only [Owning.step, hv]; rfl, h⟩
  rw [List.concat_eq_append] at hv
  rw [leave_some hv]
  have hf : Alive s.blocks f := h.alive f (by rw [hv]; simp)
  obtain ⟨s', e, e1, h1, h2, e2, e3⟩ := destroy_ok (s := { s with funs := fs }) (f := f) h.sep hf
  obtain ⟨k1, k2, k3⟩ := sep_after (s := { s with funs := fs }) (s' := s') h.sep hf h1 h2
  have hnd : (fs.map Fun.ptr).Nodup ∧ ∀ g ∈ fs, g.ptr ≠ f.ptr := by
    have := h.nodup
    rw [hv, List.map_append, List.nodup_append] at this
    exact ⟨this.1, fun g hg => this.2.2 g.ptr (List.mem_map_of_mem hg) f.ptr (by simp)⟩
  have hmem : ∀ g ∈ fs, g ∈ s.funs := fun g hg => by rw [hv]; simp [hg]
  refine ⟨s', e, ⟨?_, k1, ?_, ?_, ?_, ?_, ?_⟩⟩
  · rw [e1]
    exact fun g hg => (k3 g (h.alive g (hmem g hg)) (hnd.2 g hg)).1
  · rw [e1]; exact hnd.1
  · intro a o ho
    obtain ⟨ho, hn⟩ := k2 a o ho
    rcases h.exact a o ho with ⟨g, hg, hga⟩ | hL
    · left
      rw [hv, List.mem_append, List.mem_singleton] at hg
      rcases hg with hg | rfl
      · refine ⟨g, by rw [e1]; exact hg, ?_⟩
        rcases hga with hga | hga
        · exact .inl hga
        · exact .inr ((k3 g (h.alive g (hmem g hg)) (hnd.2 g hg)).2.trans hga)
      · exact absurd hga hn
    · exact .inr hL
  · intro a ha
    obtain ⟨l1, l2⟩ := h.lost a ha
    refine ⟨?_, by rw [e1]; exact fun g hg => l2 g (hmem g hg)⟩
    rw [h2 a]
    · exact l1
    · rintro (h' | h')
      · exact l2 f (by rw [hv]; simp) h'
      · have := h.sep.conf _ _ h'
        rw [l1] at this
        cases this
  · rw [e1, e2]
    have := h.count
    rw [hv] at this
    simp only [transforms, List.countP_append, List.countP_cons, List.countP_nil] at this ⊢
    split <;> simp_all
  · rw [e3]
    split
    · rename_i hd
      intro n hn
      rw [List.mem_append, List.mem_singleton] at hn
      rcases hn with hn | rfl
      · exact h.cleaned n hn
      · have := h.count
        rw [hv] at this
        simp only [transforms, List.countP_append, List.countP_cons, List.countP_nil, hd.1, if_true] at this ⊢
        have := hd.2
        simp only at this
        omega
    · exact h.cleaned

theorem look_new {m : Blocks} {bs : List Block} {b : Nat} {o : Block} (h : (m ++ bs.map some)[b]? = some (some o)) :
    m[b]? = some (some o) ∨ ∃ k, b = m.length + k ∧ bs[k]? = some o := by
  by_cases hb : b < m.length
  · rw [List.getElem?_append_left hb] at h
    exact .inl h
  · rw [List.getElem?_append_right (by omega), List.getElem?_map] at h
    refine .inr ⟨b - m.length, by omega, ?_⟩
    cases hk : bs[b - m.length]? with
    | none => rw [hk] at h; cases h
    | some x => rw [hk] at h; cases h; rfl

theorem keep_new {m : Blocks} (bs : List (Option Block)) {b : Nat} {o : Option Block} (h : m[b]? = some o) : (m ++ bs)[b]? = some o := by
  rw [List.getElem?_append_left (lt_of h)]
  exact h

theorem Alive.lt {m : Blocks} {f : Fun} (h : Alive m f) : f.ptr < m.length := by
  unfold Alive at h
  split at h
  · obtain ⟨c, hc⟩ := h
    exact lt_of hc
  · exact lt_of h

theorem Alive.keep {m : Blocks} {f : Fun} (h : Alive m f) (bs : List (Option Block)) : Alive (m ++ bs) f := by
  unfold Alive at *
  rw [List.getElem?_append_left (Alive.lt h)]
  exact h

/-- New blocks, of a transform or not. -/
theorem sep_new {m : Blocks} {bs : List Block} (h : Sep m) (hbs : bs = [.impl none] ∨ bs = [.impl (some (m.length + 1)), .config] ∨ bs = [.regex]) : Sep (m ++ bs.map some) := by
  have key : ∀ p a, (m ++ bs.map some)[p]? = some (some (.impl (some a))) → m[p]? = some (some (.impl (some a))) ∨ (p = m.length ∧ a = m.length + 1 ∧ bs[1]? = some .config) := by
    intro p a hp
    rcases look_new hp with hp | ⟨k, rfl, hk⟩
    · exact .inl hp
    · right
      rcases hbs with rfl | rfl | rfl
      · rcases k with _ | k <;> simp at hk
      · rcases k with _ | _ | k <;> simp at hk
        exact ⟨rfl, hk.symm, rfl⟩
      · rcases k with _ | k <;> simp at hk
  refine ⟨fun p a hp => ?_, fun p q a hp hq => ?_⟩
  · rcases key p a hp with hp | ⟨rfl, rfl, h1⟩
    · exact keep_new _ (h.conf p a hp)
    · rw [List.getElem?_append_right (by omega), List.getElem?_map]
      simp [h1]
  · rcases key p a hp with hp | ⟨rfl, rfl, h1⟩
    · rcases key q a hq with hq | ⟨rfl, rfl, h1⟩
      · exact h.inj p q a hp hq
      · have := lt_of (h.conf p _ hp); omega
    · rcases key q _ hq with hq | ⟨rfl, _, _⟩
      · have := lt_of (h.conf q _ hq); omega
      · rfl

/-- A new functor with its blocks. -/
theorem inv_new {L : List Nat} {s s' : State} {f : Fun} {bs : List Block} (h : Inv L s) (hb : s'.blocks = s.blocks ++ bs.map some) (hf : s'.funs = s.funs ++ [f])
    (hp : f.ptr = s.blocks.length) (hbs : if f.dft then bs = [.impl none] ∨ bs = [.impl (some (s.blocks.length + 1)), .config] else bs = [.regex])
    (hc : s'.count = if f.dft then s.count + 1 else s.count) (hk : s'.cleaned = s.cleaned) : Inv L s' := by
  have hfirst : Alive s'.blocks f ∧ ∀ k o, bs[k]? = some o → Owns s' f (s.blocks.length + k) := by
    unfold Alive Owns
    rw [hb, hp, List.getElem?_append_right (Nat.le_refl _)]
    by_cases hd : f.dft = true
    · simp only [hd, if_true] at hbs ⊢
      rcases hbs with rfl | rfl
      · refine ⟨⟨none, by simp⟩, fun k o hk => ?_⟩
        rcases k with _ | k <;> simp at hk ⊢
      · refine ⟨⟨_, by simp; rfl⟩, fun k o hk => ?_⟩
        rcases k with _ | _ | k <;> simp at hk ⊢
    · simp only [hd, Bool.false_eq_true, if_false] at hbs ⊢
      subst hbs
      refine ⟨by simp, fun k o hk => ?_⟩
      rcases k with _ | k <;> simp at hk ⊢
  have hbs' : bs = [.impl none] ∨ bs = [.impl (some (s.blocks.length + 1)), .config] ∨ bs = [.regex] := by
    split at hbs <;> tauto
  refine ⟨?_, by rw [hb]; exact sep_new h.sep hbs', ?_, ?_, ?_, ?_, by rw [hk]; exact h.cleaned⟩
  · intro g hg
    rw [hf, List.mem_append, List.mem_singleton] at hg
    rcases hg with hg | rfl
    · rw [hb]; exact (h.alive g hg).keep _
    · exact hfirst.1
  · rw [hf, List.map_append, List.nodup_append]
    refine ⟨h.nodup, by simp, fun a ha b hb' => ?_⟩
    obtain ⟨g, hg, rfl⟩ := List.mem_map.1 ha
    simp only [List.map_cons, List.map_nil, List.mem_singleton] at hb'
    have := (h.alive g hg).lt
    omega
  · intro a o ho
    rw [hb] at ho
    rcases look_new ho with ho | ⟨k, rfl, hk'⟩
    · rcases h.exact a o ho with ⟨g, hg, hga⟩ | hL
      · refine .inl ⟨g, by rw [hf]; simp [hg], ?_⟩
        rcases hga with hga | hga
        · exact .inl hga
        · exact .inr (by rw [hb]; exact keep_new _ hga)
      · exact .inr hL
    · exact .inl ⟨f, by rw [hf]; simp, hfirst.2 k o hk'⟩
  · intro a ha
    obtain ⟨l1, l2⟩ := h.lost a ha
    refine ⟨by rw [hb]; exact keep_new _ l1, fun g hg => ?_⟩
    rw [hf, List.mem_append, List.mem_singleton] at hg
    rcases hg with hg | rfl
    · exact l2 g hg
    · have := lt_of l1; omega
  · rw [hf, hc, h.count]
    simp only [transforms, List.countP_append, List.countP_cons, List.countP_nil]
    split <;> simp_all

/-- A constructor that throws. -/
theorem inv_throw {L : List Nat} {s : State} (h : Inv L s) : Inv (L ++ [s.blocks.length]) { s with blocks := s.blocks ++ [some (.impl none)] } := by
  refine ⟨fun g hg => (h.alive g hg).keep _, sep_new (bs := [.impl none]) h.sep (.inl rfl), h.nodup, fun a o ho => ?_, fun a ha => ?_, h.count, h.cleaned⟩
  · rcases look_new (bs := [.impl none]) ho with ho | ⟨k, rfl, hk⟩
    · rcases h.exact a o ho with ⟨g, hg, hga⟩ | hL
      · refine .inl ⟨g, hg, ?_⟩
        rcases hga with hga | hga
        · exact .inl hga
        · exact .inr (keep_new _ hga)
      · exact .inr (by simp [hL])
    · rcases k with _ | k <;> simp at hk
      exact .inr (by simp)
  · rw [List.mem_append, List.mem_singleton] at ha
    rcases ha with ha | rfl
    · obtain ⟨l1, l2⟩ := h.lost a ha
      exact ⟨keep_new _ l1, l2⟩
    · refine ⟨by simp, fun g hg => ?_⟩
      have := (h.alive g hg).lt
      omega

theorem inv_use {L : List Nat} {s : State} (h : Inv L s) {i : Nat} (hp : Proper s (.use i)) : Owning.step (.use i) s = .ok s := by
  obtain ⟨f, hf, hn⟩ := hp
  have ha := h.alive f (List.mem_of_getElem? hf)
  simp only [Owning.step, hf, use]
  unfold Alive at ha
  split at ha
  · rename_i hd
    obtain ⟨c, hc⟩ := ha
    cases c with
    | none => exact absurd hc hn
    | some a => simp only [hd, if_true, hc, h.sep.conf _ _ hc, Outcome.bind_ok]
  · rename_i hd
    simp only [hd, if_false, ha, Outcome.bind_ok, Bool.false_eq_true]

theorem inv_step {L : List Nat} {s : State} (h : Inv L s) (o : Op) (hp : Proper s o) (hs : single o = true) :
    ∃ s', Owning.step o s = .ok s' ∧ Inv (if throws o then L ++ [s.blocks.length] else L) s' := by
  cases o with
  | dft n i t =>
    refine ⟨_, rfl, ?_⟩
    have hfloat : ∀ d, Dft.make n i t = .ok d → Inv L (makeDft n i t s) := by
      intro d hd
      simp only [makeDft, hd]
      cases hc : d.config with
      | none => exact inv_new (f := ⟨true, s.blocks.length⟩) (bs := [.impl none]) h rfl rfl rfl (by simp) rfl rfl
      | some a => exact inv_new (f := ⟨true, s.blocks.length⟩) (bs := [.impl (some (s.blocks.length + 1)), .config]) h rfl rfl rfl (by simp) rfl rfl
    cases t with
    | float => exact hfloat _ rfl
    | cfloat => exact hfloat _ rfl
    | _ => exact inv_throw h
  | regex v =>
    refine ⟨_, rfl, ?_⟩
    cases v with
    | false => exact h
    | true => exact inv_new (f := ⟨false, s.blocks.length⟩) (bs := [.regex]) h rfl rfl rfl (by simp) rfl rfl
  | copy i => cases hs
  | assign i j => cases hs
  | use i => exact ⟨s, inv_use h hp, h⟩
  | leave => exact inv_leave h

theorem reach_inv {L : List Nat} {s : State} (h : Reach L s) : Inv L s := by
  induction h with
  | start => exact ⟨nofun, ⟨nofun, nofun⟩, List.nodup_nil, nofun, nofun, rfl, nofun⟩
  | step o _ hp hs e ih =>
    obtain ⟨s', e', h'⟩ := inv_step ih o hp hs
    cases e.symm.trans e'
    exact h'

/-- C145: in programs that copy no functor, no statement uses or frees memory that has been freed.  Missing: copies (`copy_undefined`, `assign_undefined`) and calls of
    transforms of odd size (C113). -/
theorem owning_safe_partial {L : List Nat} {s : State} (h : Reach L s) (o : Op) (hp : Proper s o) (hs : single o = true) : ∃ s', Owning.step o s = .ok s' :=
  (inv_step (reach_inv h) o hp hs).imp fun _ h => h.1

/-- C145: every block is owned by exactly one functor until it is freed, or was allocated by a constructor that threw.  Missing: copies. -/
theorem owning_exact_partial {L : List Nat} {s : State} (h : Reach L s) (a : Nat) :
    (Allocated s a ↔ (∃ f ∈ s.funs, Owns s f a) ∨ a ∈ L) ∧
    ∀ (i j : Nat) (f g : Fun), s.funs[i]? = some f → s.funs[j]? = some g → Owns s f a → Owns s g a → i = j := by
  have h := reach_inv h
  refine ⟨⟨fun ⟨o, ho⟩ => h.exact a o ho, ?_⟩, fun i j f g hf hg h1 h2 => ?_⟩
  · rintro (⟨f, hf, rfl | ho⟩ | hL)
    · have := h.alive f hf
      unfold Alive at this
      split at this
      · exact this.imp' _ fun c hc => hc
      · exact ⟨_, this⟩
    · exact ⟨_, h.sep.conf _ _ ho⟩
    · exact ⟨_, (h.lost a hL).1⟩
  · have af := h.alive f (List.mem_of_getElem? hf)
    have ag := h.alive g (List.mem_of_getElem? hg)
    have hptr : f.ptr = g.ptr := by
      rcases h1 with h1 | h1 <;> rcases h2 with h2 | h2
      · rw [h1, h2]
      · have := h.sep.conf _ _ h2
        rw [← h1] at this
        exact absurd this af.not_config
      · have := h.sep.conf _ _ h1
        rw [← h2] at this
        exact absurd this ag.not_config
      · exact h.sep.inj _ _ _ h1 h2
    have hi : (s.funs.map Fun.ptr)[i]? = some f.ptr := by rw [List.getElem?_map, hf]; rfl
    have hj : (s.funs.map Fun.ptr)[j]? = some f.ptr := by rw [List.getElem?_map, hg, hptr]; rfl
    obtain ⟨hi1, hi2⟩ := List.getElem?_eq_some_iff.1 hi
    obtain ⟨hj1, hj2⟩ := List.getElem?_eq_some_iff.1 hj
    exact (List.Nodup.getElem_inj_iff h.nodup).1 (hi2.trans hj2.symm)

/-- C145, at the end: what is left was allocated by constructors that threw.  Missing: that (`throw_lost`) and copies. -/
theorem owning_end_partial {L : List Nat} {s : State} (h : Reach L s) (he : s.funs = []) (a : Nat) : Allocated s a ↔ a ∈ L := by
  rw [(owning_exact_partial h a).1, he]
  simp

/-- C145: the library is told to clean up when, and only when, the last transform has been destroyed.  Missing: copies (`copy_cleans`). -/
theorem owning_cleaned_partial {L : List Nat} {s : State} (h : Reach L s) : s.count = transforms s.funs ∧ (∀ n ∈ s.cleaned, n = 0) ∧
    ∀ s' f, s.funs.getLast? = some f → Owning.step .leave s = .ok s' → f.dft = true → transforms s'.funs = 0 → s'.cleaned = s.cleaned ++ [0] := by
  have hi := reach_inv h
  refine ⟨hi.count, hi.cleaned, fun s' f hf e hd ht => ?_⟩
  have hv : s.funs = s.funs.dropLast ++ [f] := (List.dropLast_append_getLast? f hf).symm
  rw [leave_some hv] at e
  obtain ⟨s2, e2, k1, -, -, -, k2⟩ := destroy_ok (s := { s with funs := s.funs.dropLast }) (f := f) hi.sep (hi.alive f (by rw [hv]; simp))
  cases e.symm.trans e2
  have hc := hi.count
  rw [hv] at hc
  rw [k1] at ht
  simp only [transforms, List.countP_append, List.countP_cons, List.countP_nil, hd, if_true] at hc ht ⊢
  rw [k2, if_pos ⟨hd, by simp only; omega⟩]
  simp only [transforms, ht]

/-- Two functors alive, one block lost. -/
def sample : State := ⟨[some (.impl (some 1)), some .config, some (.impl none), some .regex], [⟨true, 0⟩, ⟨false, 3⟩], 1, []⟩

theorem sample_reach : Reach [2] sample := by
  have h1 := Reach.step (.dft 8 false .float) .start trivial rfl rfl
  have h2 := Reach.step (.dft 8 false .double) h1 trivial rfl rfl
  exact .step (.regex true) h2 trivial rfl rfl

example : Proper sample (.use 0) ∧ Owning.step .leave sample = .ok ⟨[some (.impl (some 1)), some .config, some (.impl none), none], [⟨true, 0⟩], 1, []⟩ ∧
    (Owning.run [.leave, .leave] sample) = .ok ⟨[none, none, some (.impl none), none], [], 0, [0]⟩ := by
  refine ⟨⟨_, rfl, by decide⟩, rfl, rfl⟩

/-- No memory is ever lost. -/
def NothingLost : Prop := ∀ L s, Reach L s → s.funs = [] → ∀ a, ¬ Allocated s a

/-- `try { DFT f(8, 0.0); } catch (...) {}` loses its `DFTImpl`. -/
theorem throw_lost : ¬ NothingLost := fun h =>
  h [0] ⟨[some (.impl none)], [], 0, []⟩ (.step (.dft 8 false .double) .start trivial rfl rfl) rfl 0 ⟨_, rfl⟩

/-- What functors that have been copied point to is there or has been freed. -/
def Weak (s : State) : Prop := Sep s.blocks ∧ ∀ f ∈ s.funs, Alive s.blocks f ∨ s.blocks[f.ptr]? = some none

theorem destroy_freed {s : State} {f : Fun} (h : s.blocks[f.ptr]? = some none) : destroy f s = .ub .useAfterFree := by
  unfold destroy
  cases f.dft <;> simp [h]

theorem run_leave (n : Nat) (s : State) : run (List.replicate (n + 1) .leave) s = (Owning.step .leave s >>= run (List.replicate n .leave)) := rfl

theorem weak_after {s s' : State} {fs : List Fun} {f : Fun} (h : Weak s) (hv : s.funs = fs ++ [f]) (hf : Alive s.blocks f) (e1 : s'.funs = fs)
    (h1 : ∀ b, Owns s f b → s'.blocks[b]? = some none) (h2 : ∀ b, ¬ Owns s f b → s'.blocks[b]? = s.blocks[b]?) : Weak s' := by
  obtain ⟨k1, -, k3⟩ := sep_after h.1 hf h1 h2
  refine ⟨k1, fun g hg => ?_⟩
  rw [e1] at hg
  by_cases hp : g.ptr = f.ptr
  · rw [hp]; exact .inr (h1 _ (.inl rfl))
  · rcases h.2 g (by rw [hv]; simp [hg]) with ha | hn
    · exact .inl (k3 g ha hp).1
    · right
      by_cases ho : Owns s f g.ptr
      · exact h1 _ ho
      · rw [h2 _ ho]; exact hn

/-- If one of them has lost its memory, it is used when the functor goes. -/
theorem freed_undefined : ∀ (n : Nat) (s : State), s.funs.length = n → Weak s → (∃ f ∈ s.funs, s.blocks[f.ptr]? = some none) → run (List.replicate n .leave) s = .ub .useAfterFree
  | 0, s, hn, _, ⟨f, hf, _⟩ => by
    rw [List.length_eq_zero_iff] at hn
    rw [hn] at hf
    cases hf
  | n + 1, s, hn, hw, ⟨f, hf, hd⟩ => by
    rcases List.eq_nil_or_concat s.funs with hv | ⟨fs, g, hv⟩
    · rw [hv] at hf; cases hf
    rw [List.concat_eq_append] at hv
    rw [run_leave, leave_some hv]
    rcases hw.2 g (by rw [hv]; simp) with ha | hg
    · obtain ⟨s', e, e1, h1, h2, -, -⟩ := destroy_ok (s := { s with funs := fs }) (f := g) hw.1 ha
      rw [e]
      refine freed_undefined n s' (by rw [e1]; rw [hv] at hn; simpa using hn) (weak_after hw hv ha e1 h1 h2) ⟨f, ?_, ?_⟩
      · rw [e1]
        rw [hv, List.mem_append, List.mem_singleton] at hf
        rcases hf with hf | rfl
        · exact hf
        · unfold Alive at ha
          rw [hd] at ha
          split at ha
          · obtain ⟨c, hc⟩ := ha; cases hc
          · cases ha
      · by_cases ho : Owns s g f.ptr
        · exact h1 _ ho
        · rw [h2 _ ho]; exact hd
    · rw [destroy_freed (s := { s with funs := fs }) hg]
      rfl

/-- If two functors share their memory, the first of them to go leaves the other without. -/
theorem shared_undefined : ∀ (n : Nat) (s : State), s.funs.length = n → Sep s.blocks → (∀ f ∈ s.funs, Alive s.blocks f) → ¬ (s.funs.map Fun.ptr).Nodup →
    run (List.replicate n .leave) s = .ub .useAfterFree
  | 0, s, hn, _, _, hd => by
    rw [List.length_eq_zero_iff] at hn
    rw [hn] at hd
    exact absurd List.nodup_nil hd
  | n + 1, s, hn, hs, ha, hd => by
    rcases List.eq_nil_or_concat s.funs with hv | ⟨fs, g, hv⟩
    · rw [hv] at hd; exact absurd List.nodup_nil hd
    rw [List.concat_eq_append] at hv
    rw [run_leave, leave_some hv]
    have hg := ha g (by rw [hv]; simp)
    have hl : fs.length = n := by rw [hv] at hn; simpa using hn
    obtain ⟨s', e, e1, h1, h2, -, -⟩ := destroy_ok (s := { s with funs := fs }) (f := g) hs hg
    rw [e]
    by_cases hsh : ∃ f ∈ fs, f.ptr = g.ptr
    · obtain ⟨f, hf, hp⟩ := hsh
      refine freed_undefined n s' (by rw [e1]; exact hl) (weak_after ⟨hs, fun f hf => .inl (ha f hf)⟩ hv hg e1 h1 h2) ⟨f, by rw [e1]; exact hf, ?_⟩
      rw [hp]
      exact h1 _ (.inl rfl)
    · obtain ⟨k1, -, k3⟩ := sep_after (s := { s with funs := fs }) (s' := s') hs hg h1 h2
      refine shared_undefined n s' (by rw [e1]; exact hl) k1 (fun f hf => ?_) fun hnd => hd ?_
      · rw [e1] at hf
        exact (k3 f (ha f (by rw [hv]; simp [hf])) fun h => hsh ⟨f, hf, h⟩).1
      · rw [e1] at hnd
        rw [hv, List.map_append, List.nodup_append]
        refine ⟨hnd, by simp, fun a ha' b hb => ?_⟩
        obtain ⟨f, hf, rfl⟩ := List.mem_map.1 ha'
        simp only [List.map_cons, List.map_nil, List.mem_singleton] at hb
        rw [hb]
        exact fun h => hsh ⟨f, hf, h⟩

/-- Every functor that is copied, whatever its kind and wherever in a program, has its memory freed twice when all go. -/
theorem copy_undefined {L : List Nat} {s : State} (h : Reach L s) {i : Nat} (hi : i < s.funs.length) :
    run (.copy i :: List.replicate (s.funs.length + 1) .leave) s = .ub .useAfterFree := by
  have h := reach_inv h
  simp only [run, Owning.step, List.getElem?_eq_getElem hi, Outcome.bind_ok]
  refine shared_undefined _ _ (by simp) h.sep ?_ ?_
  · intro f hf
    rw [List.mem_append, List.mem_singleton] at hf
    rcases hf with hf | rfl
    · exact h.alive f hf
    · exact h.alive _ (List.getElem_mem hi)
  · intro hn
    simp only [List.map_append, List.nodup_append] at hn
    exact hn.2.2 _ (List.mem_map_of_mem (List.getElem_mem hi)) _ (by simp) rfl

example : run [.copy 0, .leave, .leave, .leave] sample = .ub .useAfterFree := rfl

/-- So has every functor that is assigned to another. -/
theorem assign_undefined {L : List Nat} {s : State} (h : Reach L s) {i j : Nat} (hp : Proper s (.assign i j)) (hij : i ≠ j) :
    run (.assign i j :: List.replicate s.funs.length .leave) s = .ub .useAfterFree := by
  have h := reach_inv h
  obtain ⟨f, g, hf, hg, -⟩ := hp
  have hi := (List.getElem?_eq_some_iff.1 hf).1
  simp only [run, Owning.step, hg, Outcome.bind_ok]
  refine shared_undefined _ _ (by simp) h.sep ?_ ?_
  · intro f' hf'
    rcases List.mem_or_eq_of_mem_set hf' with hf' | rfl
    · exact h.alive _ hf'
    · exact h.alive _ (List.mem_of_getElem? hg)
  · intro hn
    have h1 : ((s.funs.set i g).map Fun.ptr)[i]? = some g.ptr := by rw [List.getElem?_map, List.getElem?_set_self hi]; rfl
    have h2 : ((s.funs.set i g).map Fun.ptr)[j]? = some g.ptr := by rw [List.getElem?_map, List.getElem?_set_ne hij, hg]; rfl
    obtain ⟨hi1, hi2⟩ := List.getElem?_eq_some_iff.1 h1
    obtain ⟨hj1, hj2⟩ := List.getElem?_eq_some_iff.1 h2
    exact hij ((List.Nodup.getElem_inj_iff hn).1 (hi2.trans hj2.symm))

/-- Two transforms. -/
def two : State := ⟨[some (.impl (some 1)), some .config, some (.impl (some 3)), some .config], [⟨true, 0⟩, ⟨true, 2⟩], 2, []⟩

example : Reach [] two :=
  .step (.dft 4 true .cfloat) (.step (.dft 8 false .float) .start trivial rfl rfl) trivial rfl rfl

example : Proper two (.assign 0 1) ∧ run [.assign 0 1, .leave, .leave] two = .ub .useAfterFree := ⟨⟨_, _, rfl, rfl, rfl⟩, rfl⟩

/-- After a copy the library is told to clean up though there is a transform: `DFT f(8); { DFT g = f; }`. -/
theorem copy_cleans : ∃ s, run [.dft 8 false .float, .copy 0, .leave] Owning.start = .ok s ∧ s.funs = [⟨true, 0⟩] ∧ s.cleaned = [1] ∧ use ⟨true, 0⟩ s.blocks = .ub .useAfterFree :=
  ⟨_, rfl, rfl, rfl, rfl⟩

#print axioms owning_safe_partial
#print axioms owning_exact_partial
#print axioms owning_end_partial
#print axioms owning_cleaned_partial
#print axioms throw_lost
#print axioms copy_undefined
#print axioms assign_undefined
#print axioms copy_cleans

end Libube.OwningProps

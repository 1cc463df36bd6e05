import Verif.Lemmas.MapOps
import Verif.Spec.Maps

/-! # Lemmas: histories of map statements -/

namespace Libube.Maps

open Libube Libube.OrderSpec Libube.Order Libube.MapSpec

variable {K : Val → Prop} {cd : Val → List Int}

/-- One statement, on what the map binds a code to. -/
def step (cd : Val → List Int) (op : MapOp) (m : List Int → Option Val) : List Int → Option Val :=
  fun c => match op with
  | .set k v => if c = cd k then some v else m c
  | .touch k => if c = cd k then some (match m c with | some v => v | none => .nil) else m c

theorem get_isSome (ps : List (Val × Val)) (c : List Int) :
    (∃ v, get cd ps c = some v) ↔ ∃ p ∈ ps, cd p.1 = c := by
  constructor
  · rintro ⟨v, hv⟩
    by_contra h
    rw [get_none (fun p hp he => h ⟨p, hp, he⟩)] at hv
    cases hv
  · rintro ⟨p, hp, he⟩
    unfold Order.get
    cases h : ps.find? (fun p => decide (cd p.1 = c)) with
    | none => exact absurd (List.find?_eq_none.1 h p hp) (by simp [he])
    | some q => exact ⟨q.2, rfl⟩

theorem mapRef_get {n : Nat} (hK : KeyClass n K cd) (ps : List (Val × Val)) (k : Val) (hk : K k)
    (h : WF K cd ps) :
    ∃ ps' i p, mapRef n ps k = .ok (ps', some i) ∧ WF K cd ps' ∧ ps'[i]? = some p ∧
      cd p.1 = cd k ∧ get cd ps' (cd k) = some p.2 ∧
      (∀ c, get cd ps' c = step cd (.touch k) (get cd ps) c) := by
  rcases mapRef_spec hK ps k hk h with ⟨p1, q, p2, rfl, he, hr⟩ | ⟨p1, p2, rfl, hne, hwf, hr⟩
  · refine ⟨_, _, q, hr, h, by simp, he, by rw [← he]; exact get_middle h, ?_⟩
    intro c
    simp only [step]
    split
    · next hc => subst hc; rw [← he, get_middle h]
    · rfl
  · refine ⟨_, _, (k, .nil), hr, hwf, by simp, rfl, get_middle hwf, ?_⟩
    intro c
    simp only [step]
    split
    · next hc => subst hc; rw [get_middle (q := (k, Val.nil)) hwf, get_none hne]
    · next hc => rw [get_middle_ne (q := (k, Val.nil)) (Ne.symm hc)]

theorem run_get {n : Nat} (hK : KeyClass n K cd) (ps : List (Val × Val)) (op : MapOp)
    (hk : K (keyOf op)) (h : WF K cd ps) :
    ∃ ps', op.run n ps = .ok ps' ∧ WF K cd ps' ∧
      ∀ c, get cd ps' c = step cd op (get cd ps) c := by
  cases op with
  | set k v =>
    obtain ⟨ps', h1, h2, h3, -⟩ := mapSet_spec hK ps k v hk h
    exact ⟨ps', h1, h2, h3⟩
  | touch k =>
    obtain ⟨ps', i, p, h1, h2, -, -, -, h3⟩ := mapRef_get hK ps k hk h
    exact ⟨ps', by simp [MapOp.run, h1], h2, h3⟩

theorem mapRun_append (n : Nat) (ps : List (Val × Val)) (a b : List MapOp) :
    mapRun n ps (a ++ b) = (mapRun n ps a >>= fun ps => mapRun n ps b) := by
  induction a generalizing ps with
  | nil => rfl
  | cons op a ih =>
    simp only [List.cons_append, mapRun]
    cases op.run n ps <;> simp [ih]

theorem mapRun_get {n : Nat} (hK : KeyClass n K cd) (h : List MapOp) (ps : List (Val × Val))
    (hk : ∀ op ∈ h, K (keyOf op)) (hwf : WF K cd ps) :
    ∃ ps', mapRun n ps h = .ok ps' ∧ WF K cd ps' ∧
      ∀ c, get cd ps' c = h.foldl (fun m op => step cd op m) (get cd ps) c := by
  induction h generalizing ps with
  | nil => exact ⟨ps, rfl, hwf, fun _ => rfl⟩
  | cons op h ih =>
    obtain ⟨p1, e1, w1, g1⟩ := run_get hK ps op (hk op (by simp)) hwf
    obtain ⟨p2, e2, w2, g2⟩ := ih p1 (fun o ho => hk o (by simp [ho])) w1
    refine ⟨p2, by simp [mapRun, e1, e2], w2, ?_⟩
    intro c
    rw [g2, List.foldl_cons, show get cd p1 = step cd op (get cd ps) from funext g1]

theorem fold_append (a b : List MapOp) (m : List Int → Option Val) :
    (a ++ b).foldl (fun m op => step cd op m) m =
      b.foldl (fun m op => step cd op m) (a.foldl (fun m op => step cd op m) m) :=
  List.foldl_append

/-- statements that do not assign to `c` keep a binding of `c`. -/
theorem fold_keep (b : List MapOp) (m : List Int → Option Val) (c : List Int) (v : Val)
    (hb : ∀ k v, .set k v ∈ b → cd k ≠ c) (hm : m c = some v) :
    b.foldl (fun m op => step cd op m) m c = some v := by
  induction b generalizing m with
  | nil => exact hm
  | cons op b ih =>
    rw [List.foldl_cons]
    refine ih _ (fun k v h => hb k v (by simp [h])) ?_
    cases op with
    | set k w =>
      simp only [step]
      rw [if_neg (fun h => hb k w (by simp) h.symm)]; exact hm
    | touch k => simp only [step]; split <;> simp [hm]

theorem fold_absent (b : List MapOp) (m : List Int → Option Val) (c : List Int)
    (hb : ∀ k v, .set k v ∈ b → cd k ≠ c) (hm : m c = none ∨ m c = some .nil) :
    (b.foldl (fun m op => step cd op m) m c = none ∨
     b.foldl (fun m op => step cd op m) m c = some .nil) := by
  induction b generalizing m with
  | nil => exact hm
  | cons op b ih =>
    rw [List.foldl_cons]
    refine ih _ (fun k v h => hb k v (by simp [h])) ?_
    cases op with
    | set k w =>
      simp only [step]
      rw [if_neg (fun h => hb k w (by simp) h.symm)]; exact hm
    | touch k =>
      simp only [step]
      split
      · right
        rcases hm with h | h <;> simp [h]
      · exact hm

theorem fold_isSome (b : List MapOp) (m : List Int → Option Val) (c : List Int) :
    (∃ v, b.foldl (fun m op => step cd op m) m c = some v) ↔
      (∃ v, m c = some v) ∨ ∃ op ∈ b, cd (keyOf op) = c := by
  induction b generalizing m with
  | nil => simp
  | cons op b ih =>
    rw [List.foldl_cons, ih]
    have : (∃ v, step cd op m c = some v) ↔ (∃ v, m c = some v) ∨ cd (keyOf op) = c := by
      cases op with
      | set k w =>
        simp only [step, keyOf]
        by_cases h : c = cd k
        · simp [h]
        · simp [h, Ne.symm h]
      | touch k =>
        simp only [step, keyOf]
        by_cases h : c = cd k
        · simp [h]
        · simp [h, Ne.symm h]
    rw [this]
    simp only [List.mem_cons, exists_eq_or_imp]
    tauto

end Libube.Maps

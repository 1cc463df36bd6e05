import Verif.Lemmas.MapRun
import Verif.Lemmas.Same

/-! # C33-C36, C77: maps

Histories are lists of the statements `m[k] = v;` and `m[k];` run on a fresh map.  Keys are
characters, integers, numbers other than NaN and strings without NUL (`IsKey`), in any mixture;
values are arbitrary.  `n` is the call depth granted to key comparisons; 2 suffices. -/

namespace Libube.Maps

open Libube Libube.OrderSpec Libube.Order Libube.MapSpec

/-- The map after a history: what it contains, stated for any class of keys whose comparison is
    a linear order. -/
theorem history {K : Val → Prop} {cd : Val → List Int} {n : Nat} (hK : KeyClass n K cd)
    {Eqv : Val → Val → Prop} (hE : ∀ a b, K a → K b → (Eqv a b ↔ cd a = cd b))
    (h : List MapOp) (hk : ∀ op ∈ h, K (keyOf op)) :
    ∃ ps, mapRun n [] h = .ok ps ∧
      (∀ k v, K k → LastSet Eqv h k v → mapAt n ps k = .ok v ∧
        ∃ i p, mapRef n ps k = .ok (ps, some i) ∧ ps[i]? = some p ∧ p.2 = v) ∧
      (∀ k, K k → NeverSet Eqv h k → mapAt n ps k = .ok .nil) ∧
      DistinctKeys Eqv h (ps.map Prod.fst) ∧ WF K cd ps := by
  obtain ⟨ps, e, w, g⟩ := mapRun_get hK h [] hk WF.nil
  have hmem : ∀ k v, .set k v ∈ h → K k := fun k v hm => hk _ hm
  refine ⟨ps, e, ?_, ?_, ?_, w⟩
  · rintro k v hkk ⟨a, b, k', rfl, he, hb⟩
    have hk' : K k' := hmem k' v (by simp)
    have hc := (hE _ _ hk' hkk).1 he
    have hg : get cd ps (cd k) = some v := by
      rw [g, fold_append, List.foldl_cons]
      refine fold_keep b _ _ _ ?_ ?_
      · intro k'' v'' hm hcc
        exact hb k'' v'' hm ((hE _ _ (hmem k'' v'' (by simp [hm])) hkk).2 hcc)
      · simp [step, hc]
    refine ⟨by rw [mapAt_spec hK ps k hkk w, hg], ?_⟩
    rcases mapRef_spec hK ps k hkk w with ⟨p1, q, p2, rfl, he, hr⟩ | ⟨p1, p2, rfl, hne, -, -⟩
    · refine ⟨_, q, hr, by simp, ?_⟩
      have := get_middle w
      rw [he, hg] at this
      exact (Option.some.inj this).symm
    · rw [get_none hne] at hg; cases hg
  · intro k hkk hn
    rw [mapAt_spec hK ps k hkk w, g]
    have := fold_absent h (get cd []) (cd k) (fun k' v' hm hc =>
      hn k' v' hm ((hE _ _ (hmem k' v' hm) hkk).2 hc)) (Or.inl rfl)
    rcases this with h1 | h1 <;> rw [h1]
  · refine ⟨?_, ?_, ?_⟩
    · rw [List.pairwise_map]
      refine List.Pairwise.imp_of_mem ?_ w.sorted
      intro p q hp hq hlt he
      rw [hE _ _ (w.keys p hp) (w.keys q hq)] at he
      rw [he] at hlt
      exact lt_irrefl _ hlt
    · intro op hop
      have h1 : ∃ v, get cd ps (cd (keyOf op)) = some v := by
        rw [g, fold_isSome]; exact Or.inr ⟨op, hop, rfl⟩
      obtain ⟨p, hp, hc⟩ := (get_isSome ps _).1 h1
      exact ⟨p.1, List.mem_map.2 ⟨p, hp, rfl⟩, (hE _ _ (w.keys p hp) (hk op hop)).2 hc⟩
    · intro k hkm
      obtain ⟨p, hp, rfl⟩ := List.mem_map.1 hkm
      have h1 : ∃ v, get cd ps (cd p.1) = some v := (get_isSome ps _).2 ⟨p, hp, rfl⟩
      rw [g, fold_isSome] at h1
      rcases h1 with ⟨v, hv⟩ | ⟨op, hop, hc⟩
      · cases hv
      · exact ⟨op, hop, (hE _ _ (w.keys p hp) (hk op hop)).2 hc.symm⟩

/-- C33 for keys as above: after every history the map is defined; reading a key with `at` or with `[]` gives the
    value last assigned to it; keys never assigned read as nil; and the entries are in one-to-one
    correspondence with the distinct keys of the history.  Missing for the full claim: strings
    with NUL characters (`nul_string_keys_lost`) and NaN, for which it is false, and
    single-precision complex keys. -/
theorem map_is_finite_map_partial (h : List MapOp) (hk : ∀ op ∈ h, IsKey (keyOf op)) (n : Nat)
    (hn : 2 ≤ n) :
    ∃ ps, mapRun n [] h = .ok ps ∧
      (∀ k v, IsKey k → LastSet SameKey h k v → mapAt n ps k = .ok v ∧
        ∃ i p, mapRef n ps k = .ok (ps, some i) ∧ ps[i]? = some p ∧ p.2 = v) ∧
      (∀ k, IsKey k → NeverSet SameKey h k → mapAt n ps k = .ok .nil) ∧
      DistinctKeys SameKey h (ps.map Prod.fst) := by
  obtain ⟨n, rfl⟩ : ∃ m, n = m + 2 := ⟨n - 2, by omega⟩
  obtain ⟨ps, h1, h2, h3, h4, -⟩ := history (isKey_class n) (fun a b => sameKey_iff) h hk
  exact ⟨ps, h1, h2, h3, h4⟩

-- m["b"] = 1; m[3] = nil; m["b"] = 2
example : (∀ op ∈ [MapOp.set (.chars [98]) (.int 1), .touch (.int 3), .set (.chars [98]) (.int 2)],
      IsKey (keyOf op)) ∧
    LastSet SameKey [MapOp.set (.chars [98]) (.int 1), .touch (.int 3), .set (.chars [98]) (.int 2)]
      (.chars [98]) (.int 2) :=
  ⟨by simp [keyOf, IsKey], [.set (.chars [98]) (.int 1), .touch (.int 3)], [], .chars [98], rfl, rfl,
    by simp⟩

/-- C34: after every history the keys, in the order of iteration, are strictly ascending, hence distinct.  Missing for the full
    claim: as for C33. -/
theorem map_keys_ascending_partial (h : List MapOp) (hk : ∀ op ∈ h, IsKey (keyOf op)) (n : Nat)
    (hn : 2 ≤ n) :
    ∃ ps, mapRun n [] h = .ok ps ∧ (ps.map Prod.fst).Pairwise KeyLt := by
  obtain ⟨n, rfl⟩ : ∃ m, n = m + 2 := ⟨n - 2, by omega⟩
  obtain ⟨ps, h1, -, -, -, w⟩ := history (isKey_class n) (fun a b => sameKey_iff) h hk
  refine ⟨ps, h1, ?_⟩
  rw [List.pairwise_map]
  exact List.Pairwise.imp_of_mem (fun {p q} hp hq hlt =>
    (keyLt_iff (w.keys p hp) (w.keys q hq)).2 hlt) w.sorted

example : ∀ op ∈ [MapOp.set (.chars [98]) (.int 1), .set (.int 3) .nil], IsKey (keyOf op) := by
  simp [keyOf, IsKey]

/-- C35: for a map in key order, `at` of an absent key returns nil (and, being a function of the
    map, changes nothing); `m[k]` on an absent key inserts exactly that key with a nil value
    between the smaller and the larger keys, and on a present key changes nothing.
    Missing for the full claim: keys other than the above; `at(nil)` on a map with a string key
    is even undefined (`at_nil_undefined`). -/
theorem lookup_effects_partial (ps : List (Val × Val)) (hks : ∀ p ∈ ps, IsKey p.1)
    (hs : ps.Pairwise (fun p q => KeyLt p.1 q.1)) (k : Val) (hk : IsKey k) (n : Nat) (hn : 2 ≤ n) :
    ((∀ p ∈ ps, ¬ SameKey p.1 k) →
      mapAt n ps k = .ok .nil ∧
      ∃ p1 p2, ps = p1 ++ p2 ∧ (∀ p ∈ p1, KeyLt p.1 k) ∧ (∀ p ∈ p2, KeyLt k p.1) ∧
        mapRef n ps k = .ok (p1 ++ (k, .nil) :: p2, some p1.length)) ∧
    (∀ p ∈ ps, SameKey p.1 k → mapAt n ps k = .ok p.2 ∧
      ∃ i, mapRef n ps k = .ok (ps, some i) ∧ ps[i]? = some p) := by
  obtain ⟨n, rfl⟩ : ∃ m, n = m + 2 := ⟨n - 2, by omega⟩
  have hK := isKey_class n
  have w : WF IsKey code ps := ⟨hks, List.Pairwise.imp_of_mem (fun {p q} h1 h2 h =>
    (keyLt_iff (hks p h1) (hks q h2)).1 h) hs⟩
  refine ⟨?_, ?_⟩
  · intro hne
    have hne' : ∀ p ∈ ps, code p.1 ≠ code k := fun p hp hc =>
      hne p hp ((sameKey_iff (hks p hp) hk).2 hc)
    refine ⟨by rw [mapAt_spec hK ps k hk w, get_none hne'], ?_⟩
    rcases mapRef_spec hK ps k hk w with ⟨p1, q, p2, rfl, he, -⟩ | ⟨p1, p2, rfl, -, w', hr⟩
    · exact absurd he (hne' q (by simp))
    · have hp := List.pairwise_append.1 w'.sorted
      refine ⟨p1, p2, rfl, ?_, ?_, hr⟩
      · intro p hp1
        exact (keyLt_iff (hks p (by simp [hp1])) hk).2 (hp.2.2 p hp1 (k, .nil) (by simp))
      · intro p hp2
        exact (keyLt_iff hk (hks p (by simp [hp2]))).2 ((List.pairwise_cons.1 hp.2.1).1 p hp2)
  · intro p hp hsame
    have hc := (sameKey_iff (hks p hp) hk).1 hsame
    obtain ⟨a, b, rfl⟩ := List.append_of_mem hp
    have hg := get_middle w
    refine ⟨by rw [mapAt_spec hK _ k hk w, ← hc, hg], ?_⟩
    rcases mapRef_spec hK _ k hk w with ⟨p1, q, p2, e, he, hr⟩ | ⟨p1, p2, -, hne, -, -⟩
    · refine ⟨_, hr, ?_⟩
      rw [e]
      simp only [List.length_append, le_refl, List.getElem?_append_right, Nat.sub_self,
        List.getElem?_cons_zero, Option.some.injEq]
      have hq : q ∈ a ++ p :: b := by rw [e]; simp
      have hsrt := w.sorted
      -- two entries with the same code coincide
      have key : ∀ (l : List (Val × Val)), l.Pairwise (fun p q => code p.1 < code q.1) →
          ∀ x ∈ l, ∀ y ∈ l, code x.1 = code y.1 → x = y := by
        intro l hl
        induction l with
        | nil => simp
        | cons z l ih =>
          have hz := List.pairwise_cons.1 hl
          intro x hx y hy hxy
          rcases List.mem_cons.1 hx with rfl | hx' <;> rcases List.mem_cons.1 hy with rfl | hy'
          · rfl
          · exact absurd (hz.1 y hy') (by rw [hxy]; exact lt_irrefl _)
          · exact absurd (hz.1 x hx') (by rw [hxy]; exact lt_irrefl _)
          · exact ih hz.2 x hx' y hy' hxy
      exact key _ hsrt q hq p hp (he.trans hc.symm)
    · exact absurd hc (hne p hp)

example : ∀ p ∈ ([(.chars [97], .int 1), (.chars [99], .nil)] : List (Val × Val)),
    ¬ SameKey p.1 (.chars [98]) := by simp [SameKey]

/-- C35 fails for nil: looking it up with `at` in a map with a string key dereferences a null
    pointer (whereas `m[nil]` is caught). -/
theorem at_nil_undefined (s : List UInt8) (v : Val) (n : Nat) :
    mapAt (n + 1) [(.chars s, v)] .nil = .ub .nullDeref ∧
    mapRef (n + 1) [(.chars s, v)] .nil = .ok ([(.chars s, v)], none) := by
  have h : lt (n + 1) (.chars s) .nil = .ub .nullDeref := by
    simp [lt, Val.type, Val.hasHeap]
  constructor
  · unfold mapAt binary binaryCount
    rw [binaryLoop]
    simp [h]
  · simp [mapRef, Val.defined]

/-- C36 fails: m[{1,5}] = 1; m[{2,3}] = 2; afterwards m.at({1,5}) is nil. -/
theorem array_keys_lost :
    (mapRun 3 [] [.set (.ints [1, 5]) (.int 1), .set (.ints [2, 3]) (.int 2)] >>= fun ps =>
      mapAt 3 ps (.ints [1, 5])) = .ok .nil ∧
    LastSet Same [.set (.ints [1, 5]) (.int 1), .set (.ints [2, 3]) (.int 2)] (.ints [1, 5])
      (.int 1) := by
  have a1 : lt 3 (.ints [1#32, 5#32]) (.ints [2#32, 3#32]) = .ok true := by decide +kernel
  have a2 : lt 3 (.ints [2#32, 3#32]) (.ints [1#32, 5#32]) = .ok true := by decide +kernel
  have a3 : lt 3 (.ints [1#32, 5#32]) (.ints [1#32, 5#32]) = .ok false := by decide +kernel
  have a4 : neq 3 (.ints [1#32, 5#32]) (.ints [1#32, 5#32]) = .ok false := by decide +kernel
  refine ⟨?_, [], [.set (.ints [2, 3]) (.int 2)], _, rfl, ?_, ?_⟩
  · simp [mapRun, MapOp.run, mapSet, mapRef, Val.defined, binary, binaryCount, binaryLoop_done,
      binaryLoop_true, insertPair, a1, a2, mapAt]
  · refine .array _ _ _ _ rfl rfl rfl ?_
    intro i h h'
    have h2 : i < 2 := h
    match i, h2 with
    | 0, _ => exact .int 1
    | 1, _ => exact .int 5
  · intro k v hm
    simp only [List.mem_singleton, MapOp.set.injEq] at hm
    rintro hs
    rw [hm.1] at hs
    have := (same_heaps (a := .ints [2, 3]) (b := .ints [1, 5]) rfl rfl).1 hs
    have := this.2 0 (by simp [Val.elems]) (by simp [Val.elems])
    simp only [Val.elems, List.map, List.getElem_cons_zero] at this
    clear a1 a2 a3 a4
    generalize hx : Val.int 2 = x at this
    generalize hy : Val.int 1 = y at this
    cases this with
    | int z =>
      injection hx with hx
      injection hy with hy
      rw [← hy] at hx
      exact absurd hx (by decide)
    | array _ _ us vs h1 h2 => subst hx; cases h1
    | _ => cases hx

/-- C33 does not extend to strings with NUL characters: m["x\0a"] = 1; m["x\0b"] = 2; afterwards
    m.at("x\0a") is nil. -/
theorem nul_string_keys_lost :
    (mapRun 3 [] [.set (.chars [120, 0, 97]) (.int 1), .set (.chars [120, 0, 98]) (.int 2)] >>=
      fun ps => mapAt 3 ps (.chars [120, 0, 97])) = .ok .nil := by
  have a1 : lt 3 (.chars [120, 0, 97]) (.chars [120, 0, 98]) = .ok false := by decide +kernel
  have a2 : lt 3 (.chars [120, 0, 98]) (.chars [120, 0, 97]) = .ok false := by decide +kernel
  have a3 : lt 3 (.chars [120, 0, 97]) (.chars [120, 0, 97]) = .ok false := by decide +kernel
  have a4 : neq 3 (.chars [120, 0, 97]) (.chars [120, 0, 98]) = .ok true := by decide +kernel
  have a5 : neq 3 (.chars [120, 0, 98]) (.chars [120, 0, 97]) = .ok true := by decide +kernel
  simp [mapRun, MapOp.run, mapSet, mapRef, Val.defined, binary, binaryCount, binaryLoop_done,
      binaryLoop_false, insertPair, a1, a2, a3, a4, a5, mapAt]

/-- the elements of unit arrays -/
theorem unit_elem {v : Val} (h : IsUnitArray v) :
    ∃ x, v.hasHeap = true ∧ v.elems = [x] ∧ IsKey x ∧ (∀ s, v ≠ .chars s) ∧ v.defined = true ∧
      v.type = 0 := by
  unfold IsUnitArray at h
  split at h
  · exact ⟨_, rfl, rfl, trivial, by simp, rfl, rfl⟩
  · exact ⟨_, rfl, rfl, trivial, by simp, rfl, rfl⟩
  · exact ⟨_, rfl, rfl, h, by simp, rfl, rfl⟩
  · exact ⟨_, rfl, rfl, h, by simp, rfl, rfl⟩
  · exact h.elim

theorem unit_class (n : Nat) : KeyClass (n + 3) IsUnitArray (fun v => v.elems.flatMap code) where
  lt_ok := by
    intro a b ha hb
    obtain ⟨x, h1, h2, h3, h4, -, h5⟩ := unit_elem ha
    obtain ⟨y, g1, g2, g3, g4, -, g5⟩ := unit_elem hb
    have : lt (n + 3) a b = ltLoop (lt (n + 2)) a.elems b.elems := by
      unfold lt
      rw [if_neg (by simp [h5, g5])]
      cases a <;> simp [Val.type] at h5 <;> simp [Val.hasHeap] at h1 <;> cases b <;>
        simp [Val.type] at g5 <;> simp [Val.hasHeap] at g1 <;> simp [Val.hasHeap] <;> simp_all
    rw [this, h2, g2]
    simp only [ltLoop, lt_key (n + 1) h3 g3, Outcome.bind_ok, List.flatMap_cons, List.flatMap_nil,
      List.append_nil]
    split <;> simp_all
  neq_ok := by
    intro a b ha hb
    obtain ⟨x, h1, h2, h3, h4, -, h5⟩ := unit_elem ha
    obtain ⟨y, g1, g2, g3, g4, -, g5⟩ := unit_elem hb
    rw [neq_heaps (n + 2) h1 g1, h2, g2]
    simp only [neqLoop, neq_key n h3 g3, Outcome.bind_ok, List.flatMap_cons, List.flatMap_nil,
      List.append_nil]
    by_cases h : code x = code y <;> simp [h]
  defined := by
    intro a ha
    obtain ⟨x, h1, h2, h3, h4, h5, h6⟩ := unit_elem ha
    exact h5

/-- C36 for numeric arrays of one element: after every history a key reads as the value last
    assigned to it.  Missing for the full claim: longer arrays, for which it is false
    (`array_keys_lost`). -/
theorem array_keys_partial (h : List MapOp) (hk : ∀ op ∈ h, IsUnitArray (keyOf op)) (n : Nat)
    (hn : 3 ≤ n) :
    ∃ ps, mapRun n [] h = .ok ps ∧
      (∀ k v, IsUnitArray k → LastSet (fun a b => ∃ x y, parts a = some [x] ∧ parts b = some [y] ∧
        SameKey x y) h k v → mapAt n ps k = .ok v) := by
  obtain ⟨n, rfl⟩ : ∃ m, n = m + 3 := ⟨n - 3, by omega⟩
  have hE : ∀ a b, IsUnitArray a → IsUnitArray b →
      ((∃ x y, parts a = some [x] ∧ parts b = some [y] ∧ SameKey x y) ↔
        a.elems.flatMap code = b.elems.flatMap code) := by
    intro a b ha hb
    obtain ⟨x, h1, h2, h3, -, -, -⟩ := unit_elem ha
    obtain ⟨y, g1, g2, g3, -, -, -⟩ := unit_elem hb
    simp only [parts_iff, h1, g1, h2, g2, List.flatMap_cons, List.flatMap_nil, List.append_nil,
      true_and, ← sameKey_iff h3 g3]
    constructor
    · rintro ⟨x', y', e1, e2, hs⟩
      rw [List.cons_eq_cons] at e1 e2
      rw [e1.1, e2.1]; exact hs
    · intro hs; exact ⟨x, y, rfl, rfl, hs⟩
  obtain ⟨ps, h1, h2, -⟩ := history (unit_class n) hE h hk
  exact ⟨ps, h1, fun k v hk hl => (h2 k v hk hl).1⟩

example : ∀ op ∈ [MapOp.set (.ints [7]) (.int 1), .set (.doubles [0x3ff0000000000000#64]) .nil],
    IsUnitArray (keyOf op) := by
  simp [keyOf, IsUnitArray]
  exact ⟨_, rfl⟩

/-- C77 fails: removing the first entry of {"a": 1, "b": 2} leaves {"a": 2}. -/
theorem map_remove_keeps_key :
    mapRemove [(.chars [97], .int 1), (.chars [98], .int 2)] 0 = .ok [(.chars [97], .int 2)] := by
  rfl

/-- C77, what holds: removing the last entry of a map removes exactly that entry.  Missing for the
    full claim: all other positions, where the key is kept and bound to the following value
    (`map_remove_keeps_key`). -/
theorem map_remove_last_partial (ps : List (Val × Val)) (p : Val × Val) :
    mapRemove (ps ++ [p]) ps.length = .ok ps := by
  unfold mapRemove
  rw [if_neg (by omega), if_neg (by simp)]
  have : (List.map Prod.snd (ps ++ [p])).eraseIdx ps.length = ps.map Prod.snd := by
    rw [List.map_append, List.eraseIdx_append_of_length_le (by simp)]
    simp
  simp only [Int.toNat_natCast, this]
  rw [List.map_append, List.map_singleton, List.dropLast_concat, ← List.unzip_fst, ← List.unzip_snd,
    List.zip_unzip]

example : mapRemove ([(.chars [97], .int 1)] ++ [(.chars [98], .int 2)]) 1 =
    .ok [(.chars [97], .int 1)] := map_remove_last_partial [(.chars [97], .int 1)] _

#print axioms map_is_finite_map_partial
#print axioms map_keys_ascending_partial
#print axioms lookup_effects_partial
#print axioms at_nil_undefined
#print axioms array_keys_lost
#print axioms nul_string_keys_lost
#print axioms array_keys_partial
#print axioms map_remove_keeps_key
#print axioms map_remove_last_partial

end Libube.Maps

import Verif.Lemmas.Ini
import Verif.Spec.Path

/-! # Lemmas about listing directories -/

namespace Libube.Path

open Libube Libube.CString Libube.PathSpec
open Libube.Order (KeyClass WF code mapSet_spec)
open Libube.Ini (IsStr str_class get_of_mem mem_of_get)

theorem join_eq {p : Bytes} (hp : p ≠ []) (m : Bytes) : join p m = child p m := by
  unfold join child
  by_cases h : p.getLast? = some 47
  · rw [if_pos (.inr h), if_pos h]
  · rw [if_neg (by simp [hp, h]), if_neg h]; simp

theorem child_ne {p : Bytes} (hp : p ≠ []) (m : Bytes) : child p m ≠ [] := by
  unfold child
  split <;> simp [hp]

theorem child_nul {p m : Bytes} (hp : 0 ∉ p) (hm : 0 ∉ m) : 0 ∉ child p m := by
  unfold child
  split <;> simp [hp, hm]

theorem code_chars (s : Bytes) : code (.chars s) = 0 :: s.map (fun b => (b.toNat : Int)) := rfl

theorem code_inj {s t : Bytes} (h : code (.chars s) = code (.chars t)) : s = t := by
  rw [code_chars, code_chars, List.cons.injEq] at h
  refine List.map_injective_iff.2 (fun a b hab => ?_) h.2
  exact UInt8.toNat_inj.1 (by simpa using hab)

theorem code_lt {s t : Bytes} : code (.chars s) < code (.chars t) ↔ s < t := by
  rw [code_chars, code_chars]
  induction s generalizing t with
  | nil => cases t <;> simp [List.cons_lt_cons_iff]
  | cons a s ih =>
    cases t with
    | nil => simp [List.cons_lt_cons_iff]
    | cons b t =>
      have := @ih t
      simp only [List.cons_lt_cons_iff, List.map_cons, lt_self_iff_false, true_and, false_or] at this ⊢
      rw [this]
      have h1 : ((a.toNat : Int) < b.toNat) ↔ a < b := by
        rw [UInt8.lt_iff_toNat_lt]; omega
      have h2 : ((a.toNat : Int) = b.toNat) ↔ a = b := by
        rw [← UInt8.toNat_inj]; omega
      rw [h1, h2]

theorem bytes_irrefl (s : Bytes) : ¬ s < s := fun h => lt_irrefl _ (code_lt.2 h)

theorem bytes_trans {s t u : Bytes} (h : s < t) (h' : t < u) : s < u := code_lt.1 (lt_trans (code_lt.2 h) (code_lt.2 h'))

/-- The variable holds a map from strings; `M` tells what it binds. -/
def Holds (v : Val) (M : Bytes → Option Val) : Prop :=
  (v = .nil ∧ ∀ k, M k = none) ∨ ∃ ps, ps ≠ [] ∧ v = .map ps ∧ WF IsStr code ps ∧ ∀ k, M k = Order.get code ps (code (.chars k))

theorem holds_nil : Holds .nil fun _ => none := .inl ⟨rfl, fun _ => rfl⟩

theorem setKey_holds {n : Nat} (hn : 2 ≤ n) {d : Val} {M : Bytes → Option Val} (h : Holds d M) {k : Bytes} (hk : 0 ∉ k) (v : Val) :
    ∃ d', setKey n d k v = .ok d' ∧ Holds d' fun j => if j = k then some v else M j := by
  obtain ⟨n, rfl⟩ : ∃ m, n = m + 2 := ⟨n - 2, by omega⟩
  have key : ∀ ps, WF IsStr code ps → (∀ k, M k = Order.get code ps (code (.chars k))) →
      ∃ ps', mapSet (n + 2) ps (.chars k) v = .ok ps' ∧ Holds (.map ps') fun j => if j = k then some v else M j := by
    intro ps w g
    obtain ⟨ps', e, w', g', -⟩ := mapSet_spec (str_class n) ps (.chars k) v ⟨k, rfl, hk⟩ w
    refine ⟨ps', e, .inr ⟨ps', ?_, rfl, w', fun j => ?_⟩⟩
    · rintro rfl
      have := g' (code (.chars k))
      simp [Order.get] at this
    · rw [g' (code (.chars j))]
      dsimp only
      rw [g j]
      by_cases hj : j = k
      · subst hj; simp
      · rw [if_neg hj, if_neg (fun he => hj (code_inj he))]
  rcases h with ⟨rfl, h⟩ | ⟨ps, hne, rfl, w, g⟩
  · obtain ⟨ps', e, w⟩ := key [] WF.nil (fun k => by rw [h k]; rfl)
    exact ⟨.map ps', by simp [setKey, e], w⟩
  · obtain ⟨ps', e, w⟩ := key ps w g
    exact ⟨.map ps', by simp [setKey, e], w⟩

theorem str_keys {ps : List (Val × Val)} (w : WF IsStr code ps) : ∃ qs : List (Bytes × Val), ps = qs.map (fun e => (.chars e.1, e.2)) := by
  have h : ∀ p ∈ ps, ∃ s, p.1 = .chars s := fun p hp => (w.keys p hp).imp fun _ h => h.1
  clear w
  induction ps with
  | nil => exact ⟨[], rfl⟩
  | cons p ps ih =>
    obtain ⟨qs, rfl⟩ := ih fun q hq => h q (by simp [hq])
    obtain ⟨s, hs⟩ := h p (by simp)
    exact ⟨(s, p.2) :: qs, by simp [← hs]⟩

theorem holds_isMap {v : Val} {M : Bytes → Option Val} (h : Holds v M) :
    (v = .nil ∧ ∀ k, M k = none) ∨ ∃ ps : List (Bytes × Val), ps ≠ [] ∧ v = .map (ps.map fun e => (.chars e.1, e.2)) ∧
      ps.Pairwise (fun a b => a.1 < b.1) ∧ (∀ e ∈ ps, M e.1 = some e.2) ∧ ∀ k x, M k = some x → (k, x) ∈ ps := by
  rcases h with h | ⟨ps, hne, rfl, w, g⟩
  · exact .inl h
  · obtain ⟨qs, rfl⟩ := str_keys w
    refine .inr ⟨qs, by simpa using hne, rfl, ?_, fun e he => ?_, fun k x hx => ?_⟩
    · have := w.sorted
      rw [List.pairwise_map] at this
      exact this.imp fun h => code_lt.1 h
    · rw [g e.1]
      exact get_of_mem w (p := (.chars e.1, e.2)) (List.mem_map.2 ⟨e, he, rfl⟩)
    · rw [g k] at hx
      obtain ⟨p, hp, h1, h2⟩ := mem_of_get hx
      obtain ⟨e, he, rfl⟩ := List.mem_map.1 hp
      rw [← code_inj h1, ← h2]
      exact he

/-! ## Listing -/

open Classical in
/-- The variable lists the paths of a set. -/
def Lists (iVal : Bool) (v : Val) (S : Bytes → Prop) : Prop := Holds v fun k => if S k then some (info iVal k) else none

theorem lists_congr {iVal : Bool} {v : Val} {S T : Bytes → Prop} (h : Lists iVal v S) (e : ∀ k, S k ↔ T k) : Lists iVal v T := by
  have : S = T := funext fun k => propext (e k)
  rwa [this] at h

theorem lists_nil (iVal : Bool) : Lists iVal .nil fun _ => False := by
  unfold Lists
  simpa using holds_nil

theorem setKey_lists {n : Nat} (hn : 2 ≤ n) {iVal : Bool} {d : Val} {S : Bytes → Prop} (h : Lists iVal d S) {k : Bytes} (hk : 0 ∉ k) :
    ∃ d', setKey n d k (info iVal k) = .ok d' ∧ Lists iVal d' fun j => S j ∨ j = k := by
  obtain ⟨d', e, h'⟩ := setKey_holds hn h hk (info iVal k)
  refine ⟨d', e, ?_⟩
  unfold Lists
  convert h' using 2 with j
  by_cases hj : j = k
  · subst hj; simp
  · rw [if_neg hj]
    congr 1
    simp [hj]

theorem lists_isMap {iVal : Bool} {v : Val} {S : Bytes → Prop} (h : Lists iVal v S) : IsMap v S fun k x => x = info iVal k := by
  rcases holds_isMap h with ⟨rfl, h'⟩ | ⟨ps, hne, rfl, hs, h1, h2⟩
  · refine .inl ⟨rfl, fun k hk => ?_⟩
    have := h' k
    rw [if_pos hk] at this
    cases this
  · refine .inr ⟨ps, hne, rfl, hs, fun e he => ?_, fun k hk => ⟨_, h2 k (info iVal k) (if_pos hk), rfl⟩⟩
    have := h1 e he
    split at this
    · next h => exact ⟨h, (Option.some.inj this).symm⟩
    · cases this

theorem dirLoop_lists {n : Nat} (hn : 2 ≤ n) {iVal : Bool} {p : Bytes} (hp : p ≠ []) (h0 : 0 ∉ p) (ms : List Bytes) (hm : ∀ m ∈ ms, 0 ∉ m) {d : Val}
    {S : Bytes → Prop} (h : Lists iVal d S) : ∃ d', dirLoop n iVal p ms d = .ok d' ∧ Lists iVal d' fun k => S k ∨ ∃ m ∈ ms, k = child p m := by
  induction ms generalizing d S with
  | nil => exact ⟨d, rfl, lists_congr h fun k => by simp⟩
  | cons m ms ih =>
    obtain ⟨d1, e1, h1⟩ := setKey_lists hn h (child_nul h0 (hm m (by simp)))
    obtain ⟨d2, e2, h2⟩ := ih (fun x hx => hm x (by simp [hx])) h1
    refine ⟨d2, ?_, lists_congr h2 fun k => by simp [or_assoc]⟩
    simp only [dirLoop, join_eq hp, e1, Outcome.bind_ok, e2]

theorem below_iff {fs : Fs} {p : Bytes} {ms : List Bytes} (h : fs.stat p = .dir ms) (k : Bytes) :
    Below fs p k ↔ ∃ m ∈ ms, k = child p m ∨ fs.link (child p m) = false ∧ Below fs (child p m) k := by
  constructor
  · intro hb
    induction hb with
    | @here ms' m h1 h2 =>
      rw [h] at h1
      cases h1
      exact ⟨m, h2, .inl rfl⟩
    | @deeper q ms' m hq hl hs hm ih =>
      obtain ⟨x, hx, rfl | ⟨h1, h2⟩⟩ := ih
      · exact ⟨x, hx, .inr ⟨hl, .here hs hm⟩⟩
      · exact ⟨x, hx, .inr ⟨h1, .deeper h2 hl hs hm⟩⟩
  · rintro ⟨m, hm, rfl | ⟨hl, hb⟩⟩
    · exact .here h hm
    · induction hb with
      | here h1 h2 => exact .deeper (.here h hm) hl h1 h2
      | deeper _ h1 h2 h3 ih => exact .deeper ih h1 h2 h3

theorem not_below {fs : Fs} {p : Bytes} (h : ∀ ms, fs.stat p ≠ .dir ms) (k : Bytes) : ¬ Below fs p k := by
  intro hb
  induction hb with
  | here h1 _ => exact h _ h1
  | deeper _ _ _ _ ih => exact ih

theorem walkLoop_lists {fs : Fs} (hfs : Names fs) {n : Nat} (hn : 2 ≤ n) {iVal : Bool} {rec : Bytes → List Bytes → Val → Outcome Val} {p : Bytes} (hp : p ≠ [])
    (h0 : 0 ∉ p) (ms : List Bytes) (hm : ∀ m ∈ ms, 0 ∉ m)
    (hrec : ∀ m ∈ ms, fs.link (child p m) = false → fs.stat (child p m) = .file ∨ fs.stat (child p m) = .absent ∨
      ∃ es, fs.stat (child p m) = .dir es ∧ ∀ d S, Lists iVal d S → ∃ d', rec (child p m) es d = .ok d' ∧ Lists iVal d' fun k => S k ∨ Below fs (child p m) k)
    {d : Val} {S : Bytes → Prop} (h : Lists iVal d S) :
    ∃ d', walkLoop fs n iVal rec p ms d = .ok d' ∧
      Lists iVal d' fun k => S k ∨ ∃ m ∈ ms, k = child p m ∨ fs.link (child p m) = false ∧ Below fs (child p m) k := by
  induction ms generalizing d S with
  | nil => exact ⟨d, rfl, lists_congr h fun k => by simp⟩
  | cons m ms ih =>
    obtain ⟨d1, e1, h1⟩ := setKey_lists hn h (child_nul h0 (hm m (by simp)))
    have step : ∃ d2, enter fs rec (child p m) d1 = .ok d2 ∧ Lists iVal d2 fun k => (S k ∨ k = child p m) ∨ fs.link (child p m) = false ∧ Below fs (child p m) k := by
      cases hl : fs.link (child p m) with
      | true => exact ⟨d1, by simp [enter, hl], lists_congr h1 fun k => by simp⟩
      | false =>
        rcases hrec m (by simp) hl with hs | hs | ⟨es, hs, hr⟩
        · refine ⟨d1, by simp [enter, hl, hs], lists_congr h1 fun k => ?_⟩
          have := not_below (fs := fs) (p := child p m) (by rw [hs]; simp) k
          simp [this]
        · refine ⟨d1, by simp [enter, hl, hs], lists_congr h1 fun k => ?_⟩
          have := not_below (fs := fs) (p := child p m) (by rw [hs]; simp) k
          simp [this]
        · obtain ⟨d2, e2, h2⟩ := hr d1 _ h1
          exact ⟨d2, by simp [enter, hl, hs, e2], lists_congr h2 fun k => by simp⟩
    obtain ⟨d2, e2, h2⟩ := step
    obtain ⟨d3, e3, h3⟩ := ih (fun x hx => hm x (by simp [hx])) (fun x hx => hrec x (by simp [hx])) h2
    refine ⟨d3, ?_, lists_congr h3 fun k => ?_⟩
    · simp only [walkLoop, join_eq hp, e1, Outcome.bind_ok]
      rw [e2, Outcome.bind_ok, e3]
    · simp only [List.mem_cons, exists_eq_or_imp, or_assoc]

theorem walk_lists {fs : Fs} (hfs : Names fs) {n : Nat} (hn : 2 ≤ n) (iVal : Bool) (depth : Nat) {p : Bytes} (hp : p ≠ []) (h0 : 0 ∉ p) (hr : Readable fs depth p) :
    ∃ ms, fs.stat p = .dir ms ∧ ∀ d S, Lists iVal d S → ∃ d', walk fs n iVal depth p ms d = .ok d' ∧ Lists iVal d' fun k => S k ∨ Below fs p k := by
  induction depth generalizing p with
  | zero => exact hr.elim
  | succ depth ih =>
    obtain ⟨ms, hs, hr⟩ := hr
    refine ⟨ms, hs, fun d S h => ?_⟩
    have hm : ∀ m ∈ ms, 0 ∉ m := fun m hm => (hfs p ms hs m hm).2.2
    obtain ⟨d', e, h'⟩ := walkLoop_lists (rec := walk fs n iVal depth) hfs hn hp h0 ms hm (fun m hmm hl => by
      rcases hr m hmm hl with h | h | h
      · exact .inl h
      · exact .inr (.inl h)
      · exact .inr (.inr (ih (child_ne hp m) (child_nul h0 (hm m hmm)) h))) h
    exact ⟨d', e, lists_congr h' fun k => by rw [below_iff hs]⟩

/-! ## Trees -/

theorem treeLoop_holds {fs : Fs} {n : Nat} (hn : 2 ≤ n) {rec : Bytes → Outcome Val} {p : Bytes} (hp : p ≠ []) (f : Bytes → Val) (ms : List Bytes)
    (hm : ∀ m ∈ ms, 0 ∉ m)
    (hrec : ∀ m ∈ ms, branch fs rec (child p m) = .ok (f m))
    {d : Val} {S : List Bytes} (h : Holds d fun k => if k ∈ S then some (f k) else none) :
    ∃ d', treeLoop fs n rec p ms d = .ok d' ∧ Holds d' fun k => if k ∈ S ++ ms then some (f k) else none := by
  induction ms generalizing d S with
  | nil => exact ⟨d, rfl, by simpa using h⟩
  | cons m ms ih =>
    obtain ⟨d1, e1, h1⟩ := setKey_holds hn h (hm m (by simp)) (f m)
    obtain ⟨d2, e2, h2⟩ := ih (fun x hx => hm x (by simp [hx])) (fun x hx => hrec x (by simp [hx])) (d := d1) (S := S ++ [m]) (by
      convert h1 using 2 with j
      by_cases hj : j = m
      · subst hj; simp
      · simp [hj])
    refine ⟨d2, ?_, by simpa using h2⟩
    simp only [treeLoop, join_eq hp]
    rw [hrec m (by simp)]
    simp only [Outcome.bind_ok, e1, e2]

theorem tree_mirrors {fs : Fs} (hfs : Names fs) {n : Nat} (hn : 2 ≤ n) (depth : Nat) {p : Bytes} (hp : p ≠ []) (h0 : 0 ∉ p) (hr : Followable fs depth p) :
    (∃ ms, fs.stat p = .dir ms) ∧ ∃ v, tree fs n depth p = .ok v ∧ Mirrors fs p v := by
  induction depth generalizing p with
  | zero => exact hr.elim
  | succ depth ih =>
    obtain ⟨ms, hs, hr⟩ := hr
    refine ⟨⟨ms, hs⟩, ?_⟩
    have hm : ∀ m ∈ ms, 0 ∉ m := fun m hm => (hfs p ms hs m hm).2.2
    have step : ∀ m : Bytes, ∃ v, m ∈ ms → branch fs (tree fs n depth) (child p m) = .ok v ∧ Mirrors fs (child p m) v := by
      intro m
      by_cases hmm : m ∈ ms
      · rcases hr m hmm with h | h | h
        · exact ⟨.nil, fun _ => ⟨by simp [branch, h], .file (.inl h)⟩⟩
        · exact ⟨.nil, fun _ => ⟨by simp [branch, h], .file (.inr h)⟩⟩
        · obtain ⟨⟨es, he⟩, v, e, hv⟩ := ih (child_ne hp m) (child_nul h0 (hm m hmm)) h
          exact ⟨v, fun _ => ⟨by simp [branch, he, e], hv⟩⟩
      · exact ⟨.nil, fun h => absurd h hmm⟩
    choose f hf using step
    obtain ⟨d', e, h'⟩ := treeLoop_holds hn hp f ms hm (fun m h => (hf m h).1) (d := .nil) (S := []) (by simpa using holds_nil)
    refine ⟨d', by simp only [tree, hs]; exact e, ?_⟩
    rw [List.nil_append] at h'
    rcases holds_isMap h' with ⟨rfl, h⟩ | ⟨ps, hne, rfl, h1, h2, h3⟩
    · refine .empty ?_
      rw [hs]
      cases ms with
      | nil => rfl
      | cons m ms => simpa using h m
    · have mem : ∀ e ∈ ps, e.1 ∈ ms ∧ e.2 = f e.1 := by
        intro e he
        have := h2 e he
        split at this
        · next h => exact ⟨h, (Option.some.inj this).symm⟩
        · cases this
      refine .dir hs hne h1 (fun m hm => ⟨_, h3 m (f m) (if_pos hm), rfl⟩) (fun e he => (mem e he).1) (fun e he => ?_)
      rw [(mem e he).2]
      exact (hf e.1 (mem e he).1).2

/-! ## Parts of paths -/

/-! ## What has been read -/

theorem walkLoop_readable {fs : Fs} {n : Nat} {iVal : Bool} {rec : Bytes → List Bytes → Val → Outcome Val} {d : Nat} {p : Bytes} (hp : p ≠ [])
    (hr : ∀ {q es v w}, q ≠ [] → fs.stat q = .dir es → rec q es v = .ok w → Readable fs d q) (ms : List Bytes) : ∀ {v w : Val}, walkLoop fs n iVal rec p ms v = .ok w →
    ∀ m ∈ ms, fs.link (child p m) = false → fs.stat (child p m) = .file ∨ fs.stat (child p m) = .absent ∨ Readable fs d (child p m) := by
  induction ms with
  | nil => intro v w h m hm; cases hm
  | cons m ms ih =>
    intro v w h x hx hl
    rw [walkLoop, join_eq hp] at h
    cases h1 : setKey n v (child p m) (info iVal (child p m)) with
    | ok v1 =>
      rw [h1, Outcome.bind_ok] at h
      cases h2 : enter fs rec (child p m) v1 with
      | ok v2 =>
        rw [h2, Outcome.bind_ok] at h
        rcases List.mem_cons.1 hx with rfl | hx
        · rw [enter, if_neg (by simp [hl])] at h2
          split at h2
          · exact .inr (.inr (hr (child_ne hp _) ‹_› h2))
          · cases h2
          · cases h2
          · exact .inl ‹_›
          · exact .inr (.inl ‹_›)
        · exact ih h x hx hl
      | _ => rw [h2] at h; cases h
    | _ => rw [h1] at h; cases h

theorem walk_readable {fs : Fs} {n : Nat} {iVal : Bool} (d : Nat) {p : Bytes} (hp : p ≠ []) {ms : List Bytes} (hs : fs.stat p = .dir ms) {v w : Val}
    (h : walk fs n iVal d p ms v = .ok w) : Readable fs d p := by
  induction d generalizing p ms v w with
  | zero => cases h
  | succ d ih => exact ⟨ms, hs, walkLoop_readable hp (fun hq hs h => ih hq hs h) ms h⟩

theorem treeLoop_followable {fs : Fs} {n : Nat} {rec : Bytes → Outcome Val} {d : Nat} {p : Bytes} (hp : p ≠ []) (hr : ∀ {q w}, q ≠ [] → rec q = .ok w → Followable fs d q)
    (ms : List Bytes) : ∀ {v w : Val}, treeLoop fs n rec p ms v = .ok w →
    ∀ m ∈ ms, fs.stat (child p m) = .file ∨ fs.stat (child p m) = .absent ∨ Followable fs d (child p m) := by
  induction ms with
  | nil => intro v w h m hm; cases hm
  | cons m ms ih =>
    intro v w h x hx
    rw [treeLoop, join_eq hp] at h
    cases h1 : branch fs rec (child p m) with
    | ok v1 =>
      rw [h1, Outcome.bind_ok] at h
      cases h2 : setKey n v m v1 with
      | ok v2 =>
        rw [h2, Outcome.bind_ok] at h
        rcases List.mem_cons.1 hx with rfl | hx
        · rw [branch] at h1
          split at h1
          · exact .inr (.inr (hr (child_ne hp _) h1))
          · exact .inr (.inr (hr (child_ne hp _) h1))
          · cases h1
          · exact .inl ‹_›
          · exact .inr (.inl ‹_›)
        · exact ih h x hx
      | _ => rw [h2] at h; cases h
    | _ => rw [h1] at h; cases h

theorem tree_followable {fs : Fs} {n : Nat} (d : Nat) {p : Bytes} (hp : p ≠ []) {w : Val} (h : tree fs n d p = .ok w) : Followable fs d p := by
  induction d generalizing p w with
  | zero => cases h
  | succ d ih =>
    rw [tree] at h
    split at h
    · cases h
    · cases h
    · cases h
    · cases h
    · exact ⟨_, ‹_›, treeLoop_followable hp (fun hq h => ih hq h) _ h⟩

theorem filename_split (q : Bytes) : ∃ d, q = d ++ filename q ∧ 47 ∉ filename q ∧ (d = [] ∨ ∃ r, d = r ++ [47]) ∧ q.reverse.dropWhile (· ≠ 47) = d.reverse := by
  have h := List.takeWhile_append_dropWhile (p := fun b : UInt8 => decide (b ≠ 47)) (l := q.reverse)
  refine ⟨(q.reverse.dropWhile (· ≠ 47)).reverse, ?_, ?_, ?_, by simp⟩
  · have := congrArg List.reverse h
    rw [List.reverse_append, List.reverse_reverse] at this
    exact this.symm
  · intro hm
    have := List.mem_takeWhile_imp (List.mem_reverse.1 hm)
    simp at this
  · cases hd : q.reverse.dropWhile (· ≠ 47) with
    | nil => exact .inl rfl
    | cons b r =>
      have := List.head_dropWhile_not (fun b : UInt8 => decide (b ≠ 47)) (l := q.reverse) (by rw [hd]; simp)
      simp only [hd, List.head_cons, decide_eq_false_iff_not, not_not] at this
      subst this
      exact .inr ⟨r.reverse, by simp⟩

theorem filename_append (d f : Bytes) (hf : 47 ∉ f) (hd : d = [] ∨ ∃ r, d = r ++ [47]) : filename (d ++ f) = f := by
  unfold filename
  rw [List.reverse_append, List.takeWhile_append_of_pos (by intro b hb; simp; rintro rfl; exact hf (List.mem_reverse.1 hb))]
  rcases hd with rfl | ⟨r, rfl⟩ <;> simp

theorem parts (q : Bytes) : Parts (filename q) (stem q) (extension q) := by
  unfold stem extension
  generalize filename q = m
  unfold dot
  by_cases h2 : m = [46, 46]
  · subst h2
    exact ⟨by simp, by simp, by simp⟩
  · rw [if_neg h2]
    have h := List.takeWhile_append_dropWhile (p := fun b : UInt8 => decide (b ≠ 46)) (l := m.reverse)
    obtain ⟨t, ht⟩ : ∃ t, m.reverse.takeWhile (· ≠ 46) = t := ⟨_, rfl⟩
    have hn : 46 ∉ t := by
      intro hm
      rw [← ht] at hm
      simpa using List.mem_takeWhile_imp hm
    rw [ht] at h
    dsimp only
    rw [ht]
    cases hd : m.reverse.dropWhile (· ≠ 46) with
    | nil =>
      rw [hd, List.append_nil] at h
      have hl : ¬ t.length + 1 < m.length := by
        have := congrArg List.length h
        simp at this; omega
      rw [if_neg hl]
      refine ⟨by simp, by simp, fun _ => .inr fun hm => hn ?_⟩
      rw [h, List.mem_reverse]
      exact List.mem_of_mem_tail hm
    | cons b r =>
      have := List.head_dropWhile_not (fun b : UInt8 => decide (b ≠ 46)) (l := m.reverse) (by rw [hd]; simp)
      simp only [hd, List.head_cons, decide_eq_false_iff_not, not_not] at this
      subst this
      rw [hd] at h
      have hm : m = r.reverse ++ 46 :: t.reverse := by
        have := congrArg List.reverse h
        simpa using this.symm
      have hl : m.length = r.length + 1 + t.length := by rw [hm]; simp; omega
      cases r with
      | nil =>
        rw [if_neg (by simp at hl; omega)]
        refine ⟨by simp, by simp, fun _ => .inr ?_⟩
        rw [hm]
        simpa using hn
      | cons c r =>
        rw [if_pos (by simp at hl; omega)]
        have hi : m.length - t.length - 1 = (c :: r).reverse.length := by simp at hl ⊢; omega
        dsimp only
        rw [hi]
        conv => enter [2]; rw [hm]
        conv => enter [3]; rw [hm]
        rw [List.take_left, List.drop_left]
        exact ⟨hm.symm, .inr ⟨t.reverse, rfl, by simpa using hn, by simp, h2⟩, by simp⟩

theorem rebuild (q : Bytes) (h : ¬ ∃ a b, q = a ++ [47, 47] ++ b) :
    (if parentPath q = [] then filename q else child (parentPath q) (filename q)) = q := by
  obtain ⟨d, h1, h2, h3, h4⟩ := filename_split q
  generalize filename q = f at h1 h2 ⊢
  unfold parentPath
  rw [h4]
  rcases h3 with rfl | ⟨r, rfl⟩
  · simpa using h1.symm
  · have hr : (r ++ [47]).reverse.dropWhile (· = 47) = r.reverse := by
      rcases List.eq_nil_or_concat r with rfl | ⟨r', b, rfl⟩
      · decide
      · have hb : b ≠ 47 := by
          rintro rfl
          exact h ⟨r', f, by rw [h1]; simp⟩
        simp [hb]
    simp only [hr]
    by_cases hn : r = []
    · subst hn
      rw [h1]
      simp [child]
    · simp only [List.reverse_eq_nil_iff, hn, and_false, if_false, List.reverse_reverse]
      have hl : r.getLast? ≠ some 47 := by
        intro hl
        obtain ⟨r', rfl⟩ := List.getLast?_eq_some_iff.1 hl
        exact h ⟨r', f, by rw [h1]; simp⟩
      unfold child
      rw [if_neg hl, ← h1]

end Libube.Path

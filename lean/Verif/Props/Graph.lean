import Verif.Model.Graph
import Verif.Props.Order
import Verif.Lemmas.Config
import Mathlib.Tactic.Tauto

/-! # Graphs (C130, C131) -/

namespace Libube.GraphProps

open Graph CString OrderSpec

/-- The numbers of vertices that occur in a sequence of calls: those given, and those returned. -/
def named : List Op → List Nat → List Nat
  | [], _ => []
  | .vertex :: ops, i :: is => i :: named ops is
  | .vertex :: ops, [] => named ops []
  | .edge u v :: ops, is => u.toNat :: v.toNat :: named ops is

/-- Each number returned is greater than all that occur before it. -/
def Fresh : List Op → List Nat → List Nat → Prop
  | [], is, _ => is = []
  | .vertex :: ops, is, before => ∃ i js, is = i :: js ∧ (∀ k ∈ before, k < i) ∧ Fresh ops js (i :: before)
  | .edge u v :: ops, is, before => Fresh ops is (u.toNat :: v.toNat :: before)

/-- The calls are proper: no negative numbers. -/
def Proper (ops : List Op) : Prop := ∀ o ∈ ops, ∀ u v, o = .edge u v → 0 ≤ u ∧ 0 ≤ v

/-- How many vertices are needed: more than any number that occurs, and no more than that. -/
def Needs (ks : List Nat) (n : Nat) : Prop := (∀ k ∈ ks, k < n) ∧ (n ≠ 0 → n - 1 ∈ ks)

/-- What a sequence of calls leaves behind: no labels, the edges in order, and as many vertices as are needed. -/
theorem run_spec (ops : List Op) (hp : Proper ops) : ∀ (g : G) (before : List Nat), Needs before g.labels.length → (∀ l ∈ g.labels, l = none) →
    ∃ is g', run ops g = .ok (is, g') ∧ Fresh ops is before ∧ (∀ l ∈ g'.labels, l = none) ∧ Needs (named ops is ++ before) g'.labels.length ∧
      g'.edges = g.edges ++ ops.filterMap (fun | .edge u v => some (u.toNat, v.toNat) | .vertex => none) := by
  induction ops with
  | nil => intro g before h1 h2; exact ⟨[], g, rfl, rfl, h2, h1, by simp⟩
  | cons o ops ih =>
    have ih := ih (fun o ho => hp o (List.mem_cons_of_mem _ ho))
    intro g before h1 h2
    cases o with
    | vertex =>
      obtain ⟨is, g', e, f, a, b, d⟩ := ih ⟨g.labels ++ [none], g.edges⟩ (g.labels.length :: before)
        ⟨by intro k hk; simp only [List.mem_cons] at hk; simp only [List.length_append, List.length_cons, List.length_nil]; rcases hk with rfl | hk; · omega
            · have := h1.1 k hk; omega,
         by intro _; simp⟩
        (by intro l hl; simp only [List.mem_append, List.mem_cons, List.not_mem_nil, or_false] at hl; rcases hl with hl | rfl; · exact h2 l hl
            · rfl)
      refine ⟨g.labels.length :: is, g', ?_, ⟨_, _, rfl, h1.1, f⟩, a, ?_, ?_⟩
      · simp only [run, addVertex, e, Outcome.bind_ok]
      · simp only [Needs, named, List.mem_append, List.mem_cons, List.cons_append] at b ⊢
        exact ⟨fun k hk => b.1 k (by tauto), fun hn => by have := b.2 hn; tauto⟩
      · rw [d]; simp
    | edge u v =>
      obtain ⟨hu, hv⟩ := hp _ (List.mem_cons_self ..) u v rfl
      obtain ⟨is, g', e, f, a, b, d⟩ := ih ⟨g.labels ++ List.replicate (max u.toNat v.toNat + 1 - g.labels.length) none, g.edges ++ [(u.toNat, v.toNat)]⟩ (u.toNat :: v.toNat :: before)
        ⟨by intro k hk; simp only [List.mem_cons] at hk; simp only [List.length_append, List.length_replicate]; rcases hk with rfl | rfl | hk; · omega
            · omega
            · have := h1.1 k hk; omega,
         by intro _
            simp only [List.length_append, List.length_replicate, List.mem_cons]
            by_cases hl : g.labels.length ≤ max u.toNat v.toNat
            · omega
            · right; right
              have := h1.2 (by omega)
              rwa [show g.labels.length + (max u.toNat v.toNat + 1 - g.labels.length) - 1 = g.labels.length - 1 by omega]⟩
        (by intro l hl; simp only [List.mem_append] at hl; rcases hl with hl | hl; · exact h2 l hl
            · exact List.eq_of_mem_replicate hl)
      refine ⟨is, g', ?_, f, a, ?_, ?_⟩
      · simp only [run, addEdge]
        rw [if_neg (by omega)]
        simp only [Outcome.bind_ok, e]
      · simp only [Needs, named, List.mem_append, List.mem_cons, List.cons_append] at b ⊢
        exact ⟨fun k hk => b.1 k (by tauto), fun hn => by have := b.2 hn; tauto⟩
      · rw [d]; simp

/-- C130: whatever has been called before, `addVertex` returns a number that has not been returned or used for an edge before. -/
theorem vertices_fresh (ops : List Op) (hp : Proper ops) : ∃ is g, run ops empty = .ok (is, g) ∧ Fresh ops is [] := by
  obtain ⟨is, g, e, f, -⟩ := run_spec ops hp empty [] ⟨by simp, by simp [empty]⟩ (by simp [empty])
  exact ⟨is, g, e, f⟩

-- an edge to vertices that do not exist makes them
example : Proper [.vertex, .edge 0 3, .vertex] ∧ run [.vertex, .edge 0 3, .vertex] empty = .ok ([0, 4], ⟨[none, none, none, none, none], [(0, 3)]⟩) := by
  refine ⟨?_, rfl⟩
  intro o ho u v he
  simp only [List.mem_cons, List.not_mem_nil, or_false] at ho
  rcases ho with rfl | rfl | rfl <;> cases he
  decide

/-- A negative number of a vertex is undefined. -/
theorem edge_negative (ops : List Op) (g : G) (u v : Int) (h : u < 0 ∨ v < 0) : run (.edge u v :: ops) g = .ub .badPointer := by
  simp only [run, addEdge]
  rw [if_pos h]
  rfl

example : (3 : Int) < 0 ∨ (-1 : Int) < 0 := by decide

/-- The map of a label: strings without null characters in ascending order. -/
def Keyed (ps : List (Bytes × Bytes)) : Prop :=
  (∀ p ∈ ps, (0 : UInt8) ∉ p.1) ∧ ps.Pairwise (fun p q => List.Lex (fun a b : UInt8 => a.toNat < b.toNat) p.1 q.1)

/-- The line for a vertex: its number, the text of the name without quotation marks and up to a null character if there is one, and a semicolon. -/
inductive Line : Nat → Label → Bytes → Prop
  | none (i : Nat) : Line i none (showNat i ++ [59, 10])
  | plain (i : Nat) (ps : List (Bytes × Bytes)) : Keyed ps → (∀ p ∈ ps, p.1 ≠ [78, 65, 77, 69]) → Line i (some ps) (showNat i ++ [59, 10])
  | label (i : Nat) (ps : List (Bytes × Bytes)) (s : Bytes) : Keyed ps → ([78, 65, 77, 69], s) ∈ ps → Line i (some ps)
      (showNat i ++ [91, 108, 97, 98, 101, 108, 61, 34] ++ (s.filter (· ≠ 34)).takeWhile (· ≠ 0) ++ [34, 93, 59, 10])

/-- The lines for vertices from a number on. -/
inductive Lines : Nat → List Label → Bytes → Prop
  | nil (i : Nat) : Lines i [] []
  | cons {i : Nat} {l : Label} {ls : List Label} {t r : Bytes} : Line i l t → Lines (i + 1) ls r → Lines i (l :: ls) (t ++ r)

/-- The lines for edges. -/
inductive Arrows : List (Nat × Nat) → Bytes → Prop
  | nil : Arrows [] []
  | cons {u v : Nat} {es : List (Nat × Nat)} {r : Bytes} : Arrows es r → Arrows ((u, v) :: es) (showNat u ++ [45, 62] ++ showNat v ++ [32, 59, 10] ++ r)

theorem Keyed.wf {ps : List (Bytes × Bytes)} (h : Keyed ps) : Order.WF IsKey Order.code (ps.map fun p => (Val.chars p.1, Val.chars p.2)) := by
  have hk : ∀ p ∈ ps.map (fun p => (Val.chars p.1, Val.chars p.2)), IsKey p.1 := by
    intro p hp
    obtain ⟨q, hq, rfl⟩ := List.mem_map.1 hp
    exact h.1 q hq
  refine ⟨hk, ?_⟩
  rw [List.pairwise_map]
  refine List.Pairwise.imp_of_mem (fun {p q} hp hq hpq => ?_) h.2
  exact (Order.keyLt_iff (a := .chars p.1) (b := .chars q.1) (h.1 p hp) (h.1 q hq)).1 hpq

theorem name_key : IsKey (.chars name) := by unfold IsKey name; decide

theorem Keyed.get {ps : List (Bytes × Bytes)} (h : Keyed ps) {s : Bytes} (hs : (name, s) ∈ ps) :
    Order.get Order.code (ps.map fun p => (Val.chars p.1, Val.chars p.2)) (Order.code (.chars name)) = some (.chars s) := by
  obtain ⟨a, b, rfl⟩ := List.append_of_mem hs
  have hw := h.wf
  rw [List.map_append, List.map_cons] at hw ⊢
  exact Order.get_middle hw

theorem Keyed.get_none {ps : List (Bytes × Bytes)} (h : Keyed ps) (hn : ∀ p ∈ ps, p.1 ≠ name) :
    Order.get Order.code (ps.map fun p => (Val.chars p.1, Val.chars p.2)) (Order.code (.chars name)) = none := by
  refine Order.get_none fun p hp he => ?_
  obtain ⟨q, hq, rfl⟩ := List.mem_map.1 hp
  exact hn q hq ((Order.sameKey_iff (a := .chars q.1) (b := .chars name) (h.1 q hq) name_key).2 he)

/-- The line for a vertex is written as it should be. -/
theorem writeLabel_line {i : Nat} {l : Label} {t : Bytes} (h : Line i l t) : ∃ u, writeLabel l = (u, .ok ()) ∧ t = showNat i ++ u ++ [59, 10] := by
  cases h with
  | none => exact ⟨[], rfl, by simp⟩
  | plain ps hk hn =>
    refine ⟨[], ?_, by simp⟩
    have hg := hk.get_none hn
    rcases Config.index_get (n := 0) hk.wf (.chars name) name_key with ⟨j, v, -, e⟩ | ⟨e, -⟩
    · rw [hg] at e; cases e
    · unfold writeLabel
      simp only [value]
      rw [e]
      rfl
  | label ps s hk hs =>
    refine ⟨[91, 108, 97, 98, 101, 108, 61, 34] ++ (s.filter (· ≠ 34)).takeWhile (· ≠ 0) ++ [34, 93], ?_, by simp only [List.append_assoc]; rfl⟩
    have hg := hk.get hs
    rcases Config.index_get (n := 0) hk.wf (.chars name) name_key with ⟨j, v, e, -⟩ | ⟨-, e⟩
    · unfold writeLabel
      simp only [value]
      rw [e]
      simp only [labelText, Order.mapAt_spec (Order.isKey_class 0) _ _ name_key hk.wf, hg, Outcome.bind_ok]
      rw [if_pos (Int.natCast_nonneg j)]
      simp only [labelHead, cstr, List.append_assoc]
    · rw [hg] at e; cases e

theorem writeVertices_lines {ls : List Label} {t : Bytes} {i : Nat} (h : Lines i ls t) : writeVertices i ls = (t, .ok ()) := by
  induction h with
  | nil => rfl
  | cons hl _ ih =>
    obtain ⟨u, e, rfl⟩ := writeLabel_line hl
    simp only [writeVertices, e, ih, List.append_assoc]

theorem writeEdges_arrows : ∀ (l : List (Nat × Nat)), Arrows l (writeEdges l)
  | [] => .nil
  | (u, v) :: l => by
    have := Arrows.cons (u := u) (v := v) (writeEdges_arrows l)
    simpa only [writeEdges, List.flatMap_cons] using this

theorem Arrows.eq {l : List (Nat × Nat)} {es : Bytes} (h : Arrows l es) : writeEdges l = es := by
  induction h with
  | nil => rfl
  | cons _ ih =>
    simp only [writeEdges, List.flatMap_cons] at ih ⊢
    rw [ih]

/-- C131 for graphs with labels, which the interface has no way to set: the file lists every vertex by its number, with its name if it has one, then every
    edge in the order in which they were added. -/
theorem graph_labelled (g : G) (vs es : Bytes) (hv : Lines 0 g.labels vs) (he : Arrows g.edges es) :
    writeGraphViz g = ([100, 105, 103, 114, 97, 112, 104, 32, 71, 32, 123, 10] ++ vs ++ es ++ [125, 10], .ok ()) := by
  simp only [writeGraphViz, writeVertices_lines hv, he.eq]

-- digraph G { 0[label="b"]; 1[label="c"]; 2; 3; 0->1 ; }
example : Lines 0 [some [(name, [98])], some [([65], []), (name, [34, 99, 34])], some [([65], [66])], none]
      ([48, 91, 108, 97, 98, 101, 108, 61, 34, 98, 34, 93, 59, 10] ++ ([49, 91, 108, 97, 98, 101, 108, 61, 34, 99, 34, 93, 59, 10] ++ ([50, 59, 10] ++ ([51, 59, 10] ++ []))))
    ∧ Arrows [(0, 1)] [48, 45, 62, 49, 32, 59, 10] :=
  ⟨.cons (.label 0 [(name, [98])] [98] ⟨by simp [name], by simp⟩ (by simp [name]))
    (.cons (.label 1 [([65], []), (name, [34, 99, 34])] [34, 99, 34] ⟨by simp [name], by simp [name]; exact .rel (by decide)⟩ (by simp [name]))
    (.cons (.plain 2 [([65], [66])] ⟨by simp, by simp⟩ (by simp)) (.cons (.none 3) (.nil 4)))), .cons .nil⟩

/-- The lines of `n` vertices without labels, from a number on. -/
inductive Numbers : Nat → Nat → Bytes → Prop
  | nil (i : Nat) : Numbers i 0 []
  | cons {i n : Nat} {r : Bytes} : Numbers (i + 1) n r → Numbers i (n + 1) (showNat i ++ [59, 10] ++ r)

theorem numbers_lines : ∀ (ls : List Label) (i : Nat), (∀ l ∈ ls, l = none) → ∃ t, Numbers i ls.length t ∧ Lines i ls t
  | [], i, _ => ⟨[], .nil i, .nil i⟩
  | l :: ls, i, h => by
    have hl : l = none := h l (by simp)
    subst hl
    obtain ⟨t, a, b⟩ := numbers_lines ls (i + 1) (fun l hl => h l (by simp [hl]))
    exact ⟨_, .cons a, .cons (.none i) b⟩

/-- C131: after any calls `writeGraphViz` writes every vertex once, by its number in ascending order, and no others; then every edge as often as it was added, in
    that order. -/
theorem graph_written (ops : List Op) (hp : Proper ops) :
    ∃ is g n vs es, run ops empty = .ok (is, g) ∧ Needs (named ops is) n ∧ Numbers 0 n vs ∧
      Arrows (ops.filterMap fun | .edge u v => some (u.toNat, v.toNat) | .vertex => none) es ∧
      writeGraphViz g = ([100, 105, 103, 114, 97, 112, 104, 32, 71, 32, 123, 10] ++ vs ++ es ++ [125, 10], .ok ()) := by
  obtain ⟨is, g, e, -, h1, h2, h3⟩ := run_spec ops hp empty [] ⟨by simp, by simp [empty]⟩ (by simp [empty])
  obtain ⟨vs, a, b⟩ := numbers_lines g.labels 0 h1
  rw [List.append_nil] at h2
  refine ⟨is, g, g.labels.length, vs, writeEdges g.edges, e, h2, a, ?_, graph_labelled g vs _ b (writeEdges_arrows _)⟩
  have := writeEdges_arrows g.edges
  rw [h3] at this ⊢
  exact this

-- two vertices and an edge to a third, given twice
example : Proper [.vertex, .vertex, .edge 0 2, .edge 0 2] ∧ Needs (named [.vertex, .vertex, .edge 0 2, .edge 0 2] [0, 1]) 3 ∧
    Numbers 0 3 [48, 59, 10, 49, 59, 10, 50, 59, 10] ∧ Arrows [(0, 2), (0, 2)] [48, 45, 62, 50, 32, 59, 10, 48, 45, 62, 50, 32, 59, 10] := by
  refine ⟨?_, by simp [Needs, named], .cons (.cons (.cons (.nil 3))), .cons (.cons .nil)⟩
  intro o ho u v he
  simp only [List.mem_cons, List.not_mem_nil, or_false] at ho
  rcases ho with rfl | rfl | rfl | rfl <;> cases he <;> decide

#print axioms vertices_fresh
#print axioms edge_negative
#print axioms graph_labelled
#print axioms graph_written

end Libube.GraphProps

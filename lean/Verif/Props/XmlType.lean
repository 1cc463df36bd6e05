import Verif.Model.XmlType
import Verif.Props.Xml
import Verif.Props.MemShare

/-! # C146: documents that have been read, and one another -/

namespace Libube.XmlType

open Libube Libube.Xml Libube.XmlSpec

/-! ## Specification -/

/-- As `Shows`, with the word `t` for "text". -/
inductive ShowsAs (t : Str) : Tree → Val → Prop
  | text (s) : ShowsAs t (.text s) (.chars s)
  | empty (name atts a) : ShowsAtts atts a → ShowsAs t (.elem name atts []) (.arr [.chars name, a, .chars t, .nil])
  | elem (name atts sub a) (vs : List Val) : ShowsAtts atts a → sub ≠ [] → sub.length = vs.length →
      (∀ (i : Nat) (h : i < sub.length) (h' : i < vs.length), ShowsAs t sub[i] vs[i]) →
      ShowsAs t (.elem name atts sub) (.arr [.chars name, a, .chars t, .arr vs])

/-- With the word "text" it is what reading gives. -/
theorem showsAs_text (T : Tree) (v : Val) : ShowsAs [116, 101, 120, 116] T v ↔ Shows T v := by
  constructor
  · intro h
    induction h with
    | text s => exact .text s
    | empty name atts a h => exact .empty name atts a h
    | elem name atts sub a vs h1 h2 h3 _ ih => exact .elem name atts sub a vs h1 h2 h3 ih
  · intro h
    induction h with
    | text s => exact .text s
    | empty name atts a h => exact .empty name atts a h
    | elem name atts sub a vs h1 h2 h3 _ ih => exact .elem name atts sub a vs h1 h2 h3 ih

/-- What a program does: read a document, or change the string in TYPE of an element of a document read before. -/
inductive Cmd where
  | read (name : Str) (atts : List (Str × Str)) (sub : List Tree)
  | change (k : Nat) (f : Str → Str)

/-- The calls of expat for it. -/
def Cmd.op : Cmd → Op
  | .read name atts sub => .read (events (.elem name atts sub))
  | .change k f => .change k f

/-- The documents read, in order. -/
def trees : List Cmd → List Tree
  | [] => []
  | .read name atts sub :: cs => .elem name atts sub :: trees cs
  | .change _ _ :: cs => trees cs

/-- The changes, one after the other. -/
def changed : List Cmd → Str → Str
  | [], t => t
  | .read _ _ _ :: cs, t => changed cs t
  | .change _ f :: cs, t => changed cs (f t)

/-- The documents are well formed and only those that have been read are changed; `k` have been read before. -/
def Proper (k : Nat) : List Cmd → Prop
  | [] => True
  | .read name atts sub :: cs => (Tree.elem name atts sub).Wf ∧ Proper (k + 1) cs
  | .change j _ :: cs => j < k ∧ Proper k cs

/-! ## Proofs -/

theorem contents_as {es : List Elem} {n : Nat} {t : Str}
    (ih : ∀ (id : Nat) (v : Val) (T : Tree), content es n id = .ok v → Shows T v → ∃ v', shown t es n id = .ok v' ∧ ShowsAs t T v') :
    ∀ (xs : List Item) (ds : List Val) (ts : List Tree), contents (content es n) xs = .ok ds → ts.length = ds.length →
      (∀ (i : Nat) (h : i < ts.length) (h' : i < ds.length), Shows ts[i] ds[i]) →
      ∃ ds', contents (shown t es n) xs = .ok ds' ∧ ts.length = ds'.length ∧
        ∀ (i : Nat) (h : i < ts.length) (h' : i < ds'.length), ShowsAs t ts[i] ds'[i] := by
  intro xs
  induction xs with
  | nil =>
    intro ds ts hc hl _
    cases hc
    exact ⟨[], rfl, hl, fun i h h' => by simp at h'⟩
  | cons x xs ihx =>
    intro ds ts hc hl hs
    cases x with
    | text s =>
      simp only [contents] at hc
      cases hc' : contents (content es n) xs with
      | ok vs =>
        rw [hc', Outcome.bind_ok] at hc
        cases hc
        match ts, hl with
        | T :: ts, hl =>
          obtain ⟨ds', e, l, h⟩ := ihx vs ts hc' (by simpa using hl) (fun i h h' => hs (i + 1) (by simpa using h) (by simpa using h'))
          refine ⟨.chars s :: ds', by simp [contents, e], by simpa using l, fun i h1 h2 => ?_⟩
          cases i with
          | zero =>
            have := hs 0 (by simp) (by simp)
            cases this
            exact .text s
          | succ i => exact h i (by simpa using h1) (by simpa using h2)
      | thrown _ => rw [hc'] at hc; cases hc
      | ub _ => rw [hc'] at hc; cases hc
      | abort => rw [hc'] at hc; cases hc
      | diverge => rw [hc'] at hc; cases hc
    | child j =>
      simp only [contents] at hc
      cases hj : content es n j with
      | ok v =>
        rw [hj, Outcome.bind_ok] at hc
        cases hc' : contents (content es n) xs with
        | ok vs =>
          rw [hc', Outcome.bind_ok] at hc
          cases hc
          match ts, hl with
          | T :: ts, hl =>
            obtain ⟨ds', e, l, h⟩ := ihx vs ts hc' (by simpa using hl) (fun i h h' => hs (i + 1) (by simpa using h) (by simpa using h'))
            obtain ⟨v', e1, s1⟩ := ih j v T hj (hs 0 (by simp) (by simp))
            refine ⟨v' :: ds', by simp [contents, e, e1], by simpa using l, fun i h1 h2 => ?_⟩
            cases i with
            | zero => exact s1
            | succ i => exact h i (by simpa using h1) (by simpa using h2)
        | thrown _ => rw [hc'] at hc; cases hc
        | ub _ => rw [hc'] at hc; cases hc
        | abort => rw [hc'] at hc; cases hc
        | diverge => rw [hc'] at hc; cases hc
      | thrown _ => rw [hj] at hc; cases hc
      | ub _ => rw [hj] at hc; cases hc
      | abort => rw [hj] at hc; cases hc
      | diverge => rw [hj] at hc; cases hc

theorem contents_length {f : Nat → Outcome Val} : ∀ (xs : List Item) (ds : List Val), contents f xs = .ok ds → ds.length = xs.length := by
  intro xs
  induction xs with
  | nil => intro ds h; cases h; rfl
  | cons x xs ih =>
    intro ds h
    cases x with
    | text s =>
      simp only [contents] at h
      cases hc : contents f xs with
      | ok vs => rw [hc] at h; cases h; simp [ih vs hc]
      | _ => rw [hc] at h; cases h
    | child j =>
      simp only [contents] at h
      cases hj : f j with
      | ok v =>
        rw [hj, Outcome.bind_ok] at h
        cases hc : contents f xs with
        | ok vs => rw [hc] at h; cases h; simp [ih vs hc]
        | _ => rw [hc] at h; cases h
      | _ => rw [hj] at h; cases h

/-- Whatever the word, the rest of an element is shown as it was read. -/
theorem shown_as (es : List Elem) (t : Str) : ∀ (n id : Nat) (v : Val) (T : Tree), content es n id = .ok v → Shows T v →
    ∃ v', shown t es n id = .ok v' ∧ ShowsAs t T v' := by
  intro n
  induction n with
  | zero => intro id v T h; cases h
  | succ n ih =>
    intro id v T h hs
    simp only [content] at h
    cases he : es[id]? with
    | none => rw [he] at h; cases h
    | some e =>
      rw [he] at h
      simp only at h
      cases hc : contents (content es n) e.data with
      | ok ds =>
        rw [hc, Outcome.bind_ok] at h
        simp only [Outcome.ok.injEq] at h
        have hlen := contents_length _ _ hc
        by_cases hd : e.data = []
        · rw [if_pos hd] at h
          rw [hd] at hc
          cases hc
          subst h
          cases hs with
          | empty name atts a ha =>
            refine ⟨.arr [.chars e.name, if e.attr = [] then .nil else .map e.attr, .chars t, .nil], ?_, .empty _ _ _ ha⟩
            simp [shown, he, hd, contents]
        · rw [if_neg hd] at h
          subst h
          cases hs with
          | elem name atts sub a vs ha h1 h2 h3 =>
            obtain ⟨ds', e', l', s'⟩ := contents_as ih e.data ds sub hc h2 h3
            refine ⟨.arr [.chars e.name, if e.attr = [] then .nil else .map e.attr, .chars t, .arr ds'], ?_, .elem _ _ _ _ _ ha h1 l' s'⟩
            simp [shown, he, hd, e']
      | _ => rw [hc] at h; cases h

/-- What reading a document adds. -/
theorem read_step (n : Nat) (p : Proc) (name : Str) (atts : List (Str × Str)) (sub : List Tree) (hw : (Tree.elem name atts sub).Wf) :
    ∃ es id, step (n + 2) p (.read (events (.elem name atts sub))) = .ok ⟨p.text, p.docs ++ [⟨es, some id⟩]⟩ ∧
      ∀ t d, (Tree.elem name atts sub).depth ≤ d → ∃ v, shown t es d id = .ok v ∧ ShowsAs t (.elem name atts sub) v := by
  have key : ∀ d, (Tree.elem name atts sub).depth ≤ d → ∃ s id v, handleAll (n + 2) .init (events (.elem name atts sub)) = .ok s ∧
      (∀ a b, s.stack ≠ some (a :: b)) ∧ s.root = some id ∧ content s.elems d id = .ok v ∧ Shows (.elem name atts sub) v := by
    intro d hd
    obtain ⟨v, hv, hs⟩ := parse_tree n d name atts sub hw hd
    unfold parse at hv
    cases ha : handleAll (n + 2) .init (events (.elem name atts sub)) with
    | ok s =>
      rw [ha, Outcome.bind_ok] at hv
      unfold finish at hv
      split at hv
      · cases hv
      · rename_i h1
        split at hv
        · cases hv; cases hs
        · rename_i id h2
          exact ⟨s, id, v, rfl, fun a b h => h1 a b h, h2, hv, hs⟩
    | _ => rw [ha] at hv; cases hv
  obtain ⟨s, id, -, ha, h1, h2, -, -⟩ := key _ (le_refl _)
  refine ⟨s.elems, id, ?_, fun t d hd => ?_⟩
  · simp only [step, ha, Outcome.bind_ok]
    rw [h2]
  · obtain ⟨s', id', v, ha', -, h2', hc, hs⟩ := key d hd
    rw [ha] at ha'
    cases ha'
    rw [h2] at h2'
    cases h2'
    exact shown_as _ t d id v _ hc hs

/-- The documents show these trees, whatever the word. -/
def Good (p : Proc) (ts : List Tree) : Prop :=
  p.docs.length = ts.length ∧ ∀ (k : Nat) (T : Tree), ts[k]? = some T →
    ∃ es id, p.docs[k]? = some ⟨es, some id⟩ ∧ ∀ t d, T.depth ≤ d → ∃ v, shown t es d id = .ok v ∧ ShowsAs t T v

theorem run_good (n : Nat) : ∀ (cs : List Cmd) (p : Proc) (ts : List Tree), Good p ts → Proper ts.length cs →
    ∃ p', run (n + 2) p (cs.map Cmd.op) = .ok p' ∧ p'.text = changed cs p.text ∧ Good p' (ts ++ trees cs) := by
  intro cs
  induction cs with
  | nil => intro p ts g _; exact ⟨p, rfl, rfl, by simpa [trees] using g⟩
  | cons c cs ih =>
    intro p ts g hp
    cases c with
    | read name atts sub =>
      obtain ⟨hw, hp⟩ := hp
      obtain ⟨es, id, e, h⟩ := read_step n p name atts sub hw
      obtain ⟨p', e', t', g'⟩ := ih ⟨p.text, p.docs ++ [⟨es, some id⟩]⟩ (ts ++ [.elem name atts sub]) (by
        refine ⟨by simp [g.1], fun k T hk => ?_⟩
        by_cases hl : k < ts.length
        · rw [List.getElem?_append_left hl] at hk
          obtain ⟨es', id', h1, h2⟩ := g.2 k T hk
          refine ⟨es', id', ?_, h2⟩
          simp only
          rw [List.getElem?_append_left (by rw [g.1]; exact hl)]
          exact h1
        · obtain rfl : k = ts.length := by
            have := (List.getElem?_eq_some_iff.1 hk).1
            simp at this
            omega
          simp at hk
          subst hk
          exact ⟨es, id, by simp [← g.1], h⟩) (by simpa using hp)
      refine ⟨p', ?_, t', by simpa [trees] using g'⟩
      simp only [List.map_cons, Cmd.op, run, e, Outcome.bind_ok]
      exact e'
    | change j f =>
      obtain ⟨hj, hp⟩ := hp
      obtain ⟨es, id, h1, -⟩ := g.2 j _ (List.getElem?_eq_getElem hj)
      obtain ⟨p', e', t', g'⟩ := ih ⟨f p.text, p.docs⟩ ts ⟨g.1, g.2⟩ hp
      refine ⟨p', ?_, t', g'⟩
      simp only [List.map_cons, Cmd.op, run, step, h1, Outcome.bind_ok]
      exact e'

/-! ## C146 -/

/-- C146: after any program each document shows the tree read, with the word all changes to the strings in TYPE of all documents have led to. -/
theorem documents_show (n : Nat) (hn : 2 ≤ n) (cs : List Cmd) (hp : Proper 0 cs) : ∃ p, run n .init (cs.map Cmd.op) = .ok p ∧
    ∀ (k : Nat) (T : Tree), (trees cs)[k]? = some T → ∀ d, T.depth ≤ d → ∃ v, p.doc d k = .ok v ∧ ShowsAs (changed cs [116, 101, 120, 116]) T v := by
  obtain ⟨n, rfl⟩ : ∃ m, n = m + 2 := ⟨n - 2, by omega⟩
  obtain ⟨p, e, t, g⟩ := run_good n cs .init [] ⟨rfl, fun k T h => by simp at h⟩ hp
  refine ⟨p, e, fun k T hk d hd => ?_⟩
  obtain ⟨es, id, h1, h2⟩ := g.2 k T (by simpa using hk)
  obtain ⟨v, e', s⟩ := h2 (changed cs [116, 101, 120, 116]) d hd
  refine ⟨v, ?_, s⟩
  simp only [Proc.doc, h1]
  rw [t]
  exact e'

/-- A parser that reports no element gives a document that is nil; changes of its elements change nothing.  (Expat reports an error instead for such a file.) -/
theorem empty_document (n : Nat) (p : Proc) (f : Str → Str) : ∃ p', run n p [.read [], .change p.docs.length f] = .ok p' ∧ p'.text = p.text ∧
    ∀ d, p'.doc d p.docs.length = .ok .nil := by
  refine ⟨⟨p.text, p.docs ++ [⟨[], none⟩]⟩, ?_, rfl, fun d => ?_⟩
  · simp [run, step, handleAll, State.init]
  · simp [Proc.doc]

example : Proc.doc ⟨[84], [⟨[], none⟩]⟩ 3 0 = .ok .nil := rfl

/-- What one would expect: after any program each document shows the tree read unless a string in TYPE of that document was changed. -/
def Independent : Prop := ∀ (cs : List Cmd), Proper 0 cs → ∀ p, run 2 .init (cs.map Cmd.op) = .ok p →
  ∀ (k : Nat) (T : Tree), (trees cs)[k]? = some T → (∀ f, Cmd.change k f ∉ cs) → ∀ d, T.depth ≤ d → ∃ v, p.doc d k = .ok v ∧ Shows T v

/-- C146 for programs that do not change strings in TYPE.  Missing: programs that do (`not_independent`). -/
theorem independent_partial (n : Nat) (hn : 2 ≤ n) (cs : List Cmd) (hp : Proper 0 cs) (hc : ∀ k f, Cmd.change k f ∉ cs) : ∃ p, run n .init (cs.map Cmd.op) = .ok p ∧
    ∀ (k : Nat) (T : Tree), (trees cs)[k]? = some T → ∀ d, T.depth ≤ d → ∃ v, p.doc d k = .ok v ∧ Shows T v := by
  obtain ⟨p, e, h⟩ := documents_show n hn cs hp
  have ht : ∀ (cs : List Cmd), (∀ k f, Cmd.change k f ∉ cs) → ∀ t, changed cs t = t := by
    intro cs
    induction cs with
    | nil => intro _ t; rfl
    | cons c cs ih =>
      intro hc t
      cases c with
      | read name atts sub => exact ih (fun k f h => hc k f (List.mem_cons_of_mem _ h)) t
      | change k f => exact absurd List.mem_cons_self (hc k f)
  rw [ht cs hc] at h
  refine ⟨p, e, fun k T hk d hd => ?_⟩
  obtain ⟨v, e, s⟩ := h k T hk d hd
  exact ⟨v, e, (showsAs_text T v).1 s⟩

theorem writeElem_other (n : Nat) (t : Str) (ht : t ≠ [116, 101, 120, 116]) (a b d : Val) : writeElem (n + 3) (.arr [a, b, .chars t, d]) = .ok none := by
  have h : neq (n + 2) (.chars t) (.chars textWord) = .ok true := by
    rw [Order.neq_heaps (n + 1) rfl rfl]
    simp only [Val.elems, List.length_map]
    by_cases h : t.length = textWord.length
    · rw [if_neg (by simp [h]), Order.neqLoop_chars n t textWord h]
      simp only [Outcome.ok.injEq, decide_eq_true_eq]
      exact ht
    · simp [h]
  unfold writeElem
  rw [if_neg (by simp [Val.size, Val.type, Val.elems])]
  simp only [Val.elems, h, Outcome.bind_ok, if_true]

/-- After a program in which the changes lead to another word than "text", no document can be written: not those read before and not those read later. -/
theorem unwritable (n : Nat) (hn : 3 ≤ n) (cs : List Cmd) (hp : Proper 0 cs) (hc : changed cs [116, 101, 120, 116] ≠ [116, 101, 120, 116]) :
    ∃ p, run n .init (cs.map Cmd.op) = .ok p ∧ ∀ (k : Nat) (T : Tree), (trees cs)[k]? = some T → ∀ d, T.depth ≤ d →
      p.write n d k = .thrown (.error "xmlwriter::write(): Top level not element") := by
  obtain ⟨p, e, h⟩ := documents_show n (by omega) cs hp
  refine ⟨p, e, fun k T hk d hd => ?_⟩
  have hT : ∃ name atts sub, T = .elem name atts sub := by
    have : ∀ (cs : List Cmd), T ∈ trees cs → ∃ name atts sub, T = .elem name atts sub := by
      intro cs
      induction cs with
      | nil => intro h; cases h
      | cons c cs ih =>
        intro h
        cases c with
        | read name atts sub =>
          rcases List.mem_cons.1 h with rfl | h
          · exact ⟨_, _, _, rfl⟩
          · exact ih h
        | change _ _ => exact ih h
    exact this cs (List.mem_of_getElem? hk)
  obtain ⟨v, e1, s⟩ := h k T hk d hd
  obtain ⟨name, atts, sub, rfl⟩ := hT
  obtain ⟨n, rfl⟩ : ∃ m, n = m + 3 := ⟨n - 3, by omega⟩
  have hw : writeElem (n + 3) v = .ok none := by
    cases s with
    | empty => exact writeElem_other n _ hc _ _ _
    | elem => exact writeElem_other n _ hc _ _ _
  simp only [Proc.write, e1, Outcome.bind_ok, Xml.write, hw]

/-- `a = read("a.xml"); b = read("b.xml"); t = a[TYPE]; t[0] = 'T'; c = read("b.xml");` of `<a>x</a>` and `<b />` -/
def prog : List Cmd := [.read [97] [] [.text [120]], .read [98] [] [], .change 0 (fun t => t.set 0 84), .read [98] [] []]

theorem prog_proper : Proper 0 prog := by simp [prog, Proper, Tree.Wf, Tree.WfAll]

example : changed prog [116, 101, 120, 116] = [84, 101, 120, 116] ∧ (trees prog).length = 3 := ⟨rfl, rfl⟩

example : Proper 0 [Cmd.read [97] [] [.text [120]], .read [98] [] []] ∧ ∀ k f, Cmd.change k f ∉ [Cmd.read [97] [] [.text [120]], .read [98] [] []] := by
  refine ⟨by simp [Proper, Tree.Wf, Tree.WfAll], by simp⟩

-- none of the three can be written
example : ∃ p, run 3 .init (prog.map Cmd.op) = .ok p ∧ ∀ k < 3, p.write 3 1 k = .thrown (.error "xmlwriter::write(): Top level not element") := by
  obtain ⟨p, e, h⟩ := unwritable 3 (le_refl _) prog prog_proper (by decide)
  refine ⟨p, e, fun k hk => ?_⟩
  match k, hk with
  | 0, _ => exact h 0 _ rfl 1 (by simp [Tree.depth, Tree.depthAll])
  | 1, _ => exact h 1 _ rfl 1 (by simp [Tree.depth, Tree.depthAll])
  | 2, _ => exact h 2 _ rfl 1 (by simp [Tree.depth, Tree.depthAll])

/-- C146 fails: the first document is changed, and the others do not show what was read. -/
theorem not_independent : ¬ Independent := by
  intro h
  obtain ⟨p, e, h'⟩ := documents_show 2 (le_refl _) prog prog_proper
  obtain ⟨v, e1, s1⟩ := h prog prog_proper p e 1 (.elem [98] [] []) rfl (fun f hf => by simp [prog] at hf) 1 (by simp [Tree.depth, Tree.depthAll])
  obtain ⟨w, e2, s2⟩ := h' 1 (.elem [98] [] []) rfl 1 (by simp [Tree.depth, Tree.depthAll])
  rw [e1] at e2
  cases e2
  cases s1 with
  | empty _ _ a _ =>
    generalize hx : changed prog [116, 101, 120, 116] = x at s2
    have hx' : x = [84, 101, 120, 116] := hx.symm
    subst hx'
    cases s2
  | elem _ _ _ a vs _ h0 => exact absurd rfl h0

end Libube.XmlType

namespace Libube.MemProps

open Mem MemSpec

attribute [local instance] intEnv

/-- `var elem; elem[DATA] = nil; elem[NAME] = nil; elem[ATTR] = nil; elem[TYPE] = "text";` (lube/xmlfile.cpp:196-204), `var a = elem.copy(); a[NAME] = "a";
    var b = elem.copy(); b[NAME] = "b";` (lube/xmlfile.cpp:205, 217), and in the program `var t; t = a[TYPE]; t[0] = 'T';` -/
def progElement : List (Stmt Int) := [.decl .nil, .setElem 0 3 .nil, .setElem 0 0 .nil, .setElem 0 1 .nil, .setElem 0 2 (.str [116, 101, 120, 116]),
  .decl (.copy 0), .setElem 1 0 (.str [97]), .decl (.copy 0), .setElem 2 0 (.str [98]), .decl .nil, .assign 3 (.elem 1 2), .setElem 3 0 (.num .char 84)]

/-- On the machine of Model/Mem: the elements are three different arrays, but the string in TYPE is one and the same, and is now "Text". -/
theorem type_is_one_array : exec progElement ⟨[], []⟩ = .ok () (final progElement) ∧ (final progElement).stk = [.arr 0, .arr 2, .arr 4, .arr 1] ∧
    (∀ a ∈ [0, 2, 4], ∃ o, (final progElement).mem[a]? = some (some o) ∧ o.size = 4 ∧ o.cells[2]? = some (.var (.arr 1))) ∧
    ∃ o, (final progElement).mem[1]? = some (some o) ∧ o.cells.take o.size = [.raw (some 84), .raw (some 101), .raw (some 120), .raw (some 116)] := by
  have h0 : exec progElement ⟨[], []⟩ = .ok () (final progElement) := by decide +kernel
  have h1 : (final progElement).stk = [.arr 0, .arr 2, .arr 4, .arr 1] := by decide +kernel
  have h2 : ∀ a ∈ [0, 2, 4], ((final progElement).mem[a]?.bind id).map (fun o => (o.size, o.cells[2]?)) = some (4, some (.var (.arr 1))) := by decide +kernel
  have h3 : ((final progElement).mem[1]?.bind id).map (fun o => o.cells.take o.size) = some [.raw (some 84), .raw (some 101), .raw (some 120), .raw (some 116)] := by
    decide +kernel
  refine ⟨h0, h1, fun a ha => ?_, ?_⟩
  · have h := h2 a ha
    cases hm : (final progElement).mem[a]? with
    | none => rw [hm] at h; cases h
    | some o =>
      cases o with
      | none => rw [hm] at h; cases h
      | some o =>
        rw [hm] at h
        simp only [Option.bind_some, id, Option.map_some, Option.some.injEq, Prod.mk.injEq] at h
        exact ⟨o, rfl, h⟩
  · cases hm : (final progElement).mem[1]? with
    | none => rw [hm] at h3; cases h3
    | some o =>
      cases o with
      | none => rw [hm] at h3; cases h3
      | some o =>
        rw [hm] at h3
        simp only [Option.bind_some, id, Option.map_some, Option.some.injEq] at h3
        exact ⟨o, rfl, h3⟩

end Libube.MemProps

open Libube

#print axioms XmlType.documents_show
#print axioms XmlType.empty_document
#print axioms XmlType.independent_partial
#print axioms XmlType.unwritable
#print axioms XmlType.not_independent
#print axioms MemProps.type_is_one_array

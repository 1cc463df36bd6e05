import Verif.Lemmas.XmlShort
import Verif.Props.GetLine

/-! # C68-C70, C94: XML -/

namespace Libube.Xml

open Libube Libube.CString Libube.XmlSpec Libube.OrderSpec

theorem escapeByte_replaced (b : UInt8) (s t : Str) (h : Replaced s t) :
    Replaced (escapeByte b ++ s) (b :: t) := by
  unfold escapeByte
  split
  · subst b; exact .entity [97, 109, 112, 59] 38 s t (by decide) h
  split
  · subst b; exact .entity [108, 116, 59] 60 s t (by decide) h
  split
  · subst b; exact .entity [103, 116, 59] 62 s t (by decide) h
  split
  · subst b; exact .entity [97, 112, 111, 115, 59] 39 s t (by decide) h
  split
  · subst b; exact .entity [113, 117, 111, 116, 59] 34 s t (by decide) h
  · exact .char b s t ‹_› h

/-- Replacing entities has at most one result. -/
theorem replaced_unique {s t u : Str} (h : Replaced s t) (h' : Replaced s u) : t = u := by
  induction h generalizing u with
  | nil => cases h'; rfl
  | char b s t hb _ ih =>
    generalize hs : b :: s = s0 at h'
    cases h' with
    | nil => cases hs
    | char c s' t' hc h2 =>
      simp only [List.cons.injEq] at hs
      obtain ⟨rfl, rfl⟩ := hs
      rw [ih h2]
    | entity e c s' t' he h2 =>
      simp only [List.cons_append, List.cons.injEq] at hs
      exact absurd hs.1 hb
  | entity e b s t he _ ih =>
    generalize hs : 38 :: e ++ s = s0 at h'
    cases h' with
    | nil => cases hs
    | char c s' t' hc h2 =>
      simp only [List.cons_append, List.cons.injEq] at hs
      exact absurd hs.1.symm hc
    | entity e' c s' t' he' h2 =>
      simp only [List.cons_append, List.cons.injEq, true_and] at hs
      -- entities end at their first semicolon
      have key : e = e' ∧ b = c := by
        have : ∀ p ∈ entities, ∀ q ∈ entities, ∀ x y : Str, p.1 ++ x = q.1 ++ y → p = q := by
          intro p hp q hq x y hxy
          simp only [entities, List.mem_cons, List.not_mem_nil, or_false] at hp hq
          rcases hp with rfl | rfl | rfl | rfl | rfl <;>
            rcases hq with rfl | rfl | rfl | rfl | rfl <;>
            first | rfl | (simp at hxy; done)
        have := this (e, b) he (e', c) he' s s' hs
        simpa using this
      obtain ⟨rfl, rfl⟩ := key
      rw [List.append_cancel_left_eq] at hs
      subst hs
      rw [ih h2]

/-- C68: what the writer puts out for a string contains none of `<`, `>`, `'`, `"`, no `&` other than
    those of the five entities, and stands for the string and for nothing else. -/
theorem escape_reversible (s : Str) :
    ∃ w, escapeVal (.chars s) = .ok w ∧
      (∀ b ∈ w, b ≠ 60 ∧ b ≠ 62 ∧ b ≠ 39 ∧ b ≠ 34) ∧
      Replaced w s ∧ ∀ t, Replaced w t → t = s := by
  have h : Replaced (escape s) s := by
    induction s with
    | nil => exact .nil
    | cons b s ih => exact escapeByte_replaced b _ _ ih
  refine ⟨escape s, rfl, ?_, h, fun t ht => replaced_unique ht h⟩
  clear h
  induction s with
  | nil => simp [escape]
  | cons b s ih =>
    intro c hc0
    rcases List.mem_append.1 hc0 with hc | hc <;> clear hc0
    · unfold escapeByte at hc
      split at hc
      · revert c; decide
      split at hc
      · revert c; decide
      split at hc
      · revert c; decide
      split at hc
      · revert c; decide
      split at hc
      · revert c; decide
      · obtain rfl := List.mem_singleton.1 hc
        exact ⟨‹_›, ‹_›, ‹_›, ‹_›⟩
    · exact ih c hc

-- a<&
example : escapeVal (.chars [97, 60, 38]) = .ok [97, 38, 108, 116, 59, 38, 97, 109, 112, 59] := rfl

/-- C68 is about strings: a number as data is written as a NUL byte. -/
theorem number_written_as_nul (i : BitVec 32) : escapeVal (.int i) = .ok [0] := rfl

theorem writeData_nul (n : Nat) (xs : List Val) (h : ∀ x ∈ xs, x.size = 1 ∧ escapeVal x = .ok [0]) :
    writeData (writeElem (n + 1)) xs = .ok (List.replicate xs.length 0) := by
  induction xs with
  | nil => rfl
  | cons x xs ih =>
    have h1 : writeElem (n + 1) x = .ok none := by rw [writeElem, if_pos (by rw [(h x (by simp)).1]; decide)]
    rw [writeData, h1, ih fun y hy => h y (by simp [hy]), (h x (by simp)).2]
    rfl

/-- What is not an array of strings and elements is lost: an element whose data is a string or an array of numbers is written with a NUL byte in place of each
    character and each number. -/
theorem packed_written_as_nul (n : Nat) (name : Str) (d : Val) (k : Nat) (hd : Packed d k) (hk : 0 < k) :
    writeElem (n + 3) (.arr [.chars name, .nil, .chars textWord, d]) =
      .ok (some ([60] ++ CString.cstr name ++ [62] ++ List.replicate k 0 ++ [60, 47] ++ CString.cstr name ++ [62])) := by
  have e : neq (n + 2) (.chars textWord) (.chars textWord) = .ok false := by
    simp [neq, Val.type, Val.size, Val.elems, textWord, Val.hasHeap, neqLoop]
  have h1 : d.defined = true := by
    rcases hd with ⟨_, rfl, rfl⟩ | ⟨_, rfl, rfl⟩ | ⟨_, rfl, rfl⟩ | ⟨_, rfl, rfl⟩ | ⟨_, rfl, rfl⟩ | ⟨_, rfl, rfl⟩ | ⟨_, rfl, rfl⟩ <;>
      simpa [Val.defined, Val.size, Val.type, Val.elems] using hk
  have h2 : (dataItems d).length = k ∧ ∀ x ∈ dataItems d, x.size = 1 ∧ escapeVal x = .ok [0] := by
    rcases hd with ⟨_, rfl, rfl⟩ | ⟨_, rfl, rfl⟩ | ⟨_, rfl, rfl⟩ | ⟨_, rfl, rfl⟩ | ⟨_, rfl, rfl⟩ | ⟨_, rfl, rfl⟩ | ⟨_, rfl, rfl⟩ <;>
      refine ⟨by simp [dataItems, Val.items, Val.type, Val.elems], fun x hx => ?_⟩ <;>
      simp [dataItems, Val.items, Val.type, Val.elems] at hx <;> grind [Val.size, Val.type, escapeVal, escape, escapeByte]
  have h3 := writeData_nul (n + 1) (dataItems d) h2.2
  rw [h2.1] at h3
  rw [writeElem, if_neg (by simp [Val.size, Val.type, Val.elems])]
  simp only [Val.elems, e, Outcome.bind_ok, strOf, writeAttr, h1, h3]
  simp

-- a string, and two complex numbers of double precision
example : Packed (.chars [97, 98]) 2 ∧ Packed (.cdoubles [(0, 1), (2, 3)]) 2 :=
  ⟨.inl ⟨_, rfl, rfl⟩, .inr (.inr (.inr (.inr (.inr (.inr ⟨_, rfl, rfl⟩)))))⟩

/-- C69: for every element tree, if expat reports the tree, the handlers build it: `parse` returns
    a var that shows the tree.  (Attribute names are distinct and names contain no NUL, as in any
    XML.)  `n` is the call depth of comparisons, `d` the depth to which the result is shown. -/
theorem events_rebuild (name : Str) (atts : List (Str × Str)) (sub : List Tree)
    (hw : (Tree.elem name atts sub).Wf) (n d : Nat) (hn : 2 ≤ n)
    (hd : (Tree.elem name atts sub).depth ≤ d) :
    ∃ v, parse n d (events (.elem name atts sub)) = .ok v ∧ Shows (.elem name atts sub) v := by
  obtain ⟨n, rfl⟩ : ∃ k, n = k + 2 := ⟨n - 2, by omega⟩
  exact parse_tree n d name atts sub hw hd

/-- `<a k="1" b="2">x<c />y</a>` -/
def sample : Tree :=
  .elem [97] [([107], [49]), ([98], [50])] [.text [120], .elem [99] [] [], .text [121]]

example : sample.Wf ∧ sample.depth = 2 := by
  simp [sample, Tree.Wf, Tree.WfAll, Tree.depth, Tree.depthAll]

example : ∃ v, parse 2 2 (events sample) = .ok v ∧ Shows sample v :=
  events_rebuild _ _ _ (by simp [Tree.Wf, Tree.WfAll]) 2 2 (by decide)
    (by simp [Tree.depth, Tree.depthAll])

/-- Supplement to C69 and C70: the var determines the tree, given that attributes are listed in
    order; so nothing of the tree is lost in the var. -/
theorem shows_unique {s t : Tree} {v : Val} (hs : Shows s v) (ht : Shows t v) (ps : s.Plain)
    (pt : t.Plain) : s = t := by
  induction hs generalizing t with
  | text s => cases ht; rfl
  | empty name atts a ha =>
    generalize hv : Val.arr [.chars name, a, .chars [116, 101, 120, 116], .nil] = v at ht
    cases ht with
    | text => cases hv
    | empty name' atts' a' ha' =>
      simp only [Val.arr.injEq, List.cons.injEq, Val.chars.injEq, and_true] at hv
      obtain ⟨rfl, rfl⟩ := hv
      rw [atts_unique ha ha' ps.2.2.1 pt.2.2.1]
    | elem name' atts' sub' a' vs' ha' => simp at hv
  | elem name atts sub a vs ha hne hl hsub ih =>
    generalize hv : Val.arr [.chars name, a, .chars [116, 101, 120, 116], .arr vs] = v at ht
    cases ht with
    | text => cases hv
    | empty name' atts' a' ha' => simp at hv
    | elem name' atts' sub' a' vs' ha' hne' hl' hsub' =>
      simp only [Val.arr.injEq, List.cons.injEq, Val.chars.injEq, and_true, true_and] at hv
      obtain ⟨rfl, rfl, rfl⟩ := hv
      rw [atts_unique ha ha' ps.2.2.1 pt.2.2.1]
      congr 1
      refine List.ext_getElem (hl.trans hl'.symm) ?_
      intro i h h'
      exact ih i h (by omega) (hsub' i h' (by omega)) (plainAll_get ps.2.2.2 i h)
        (plainAll_get pt.2.2.2 i h')

/-- `<a b="2" k="1">x<c />y</a>` -/
def sample2 : Tree :=
  .elem [97] [([98], [50]), ([107], [49])] [.text [120], .elem [99] [] [], .text [121]]

/-- the var that shows it -/
def sampleVal : Val := .arr [.chars [97],
    .map [(.chars [98], .chars [50]), (.chars [107], .chars [49])], .chars [116, 101, 120, 116],
    .arr [.chars [120], .arr [.chars [99], .nil, .chars [116, 101, 120, 116], .nil], .chars [121]]]

theorem sample2_plain : sample2.Plain := by
  have name : ∀ b : UInt8, NameStart b → IsName [b] := fun b h => ⟨b, [], rfl, h, by simp⟩
  simp only [sample2, Tree.Plain, Tree.PlainAll]
  refine ⟨name _ (by decide), ?_, ?_, by simp, ⟨name _ (by decide), by simp, by simp, trivial⟩,
    by simp, trivial⟩
  · intro a ha
    simp only [List.mem_cons, List.not_mem_nil, or_false] at ha
    rcases ha with rfl | rfl
    · exact ⟨name _ (by decide), by simp⟩
    · exact ⟨name _ (by decide), by simp⟩
  · simp only [List.pairwise_cons, List.mem_singleton, forall_eq, List.not_mem_nil, false_imp_iff,
      implies_true, List.Pairwise.nil, and_true]
    exact .rel (by decide)

theorem sample2_shows : Shows sample2 sampleVal := by
  refine .elem _ _ _ _ _ ?_ (by simp) rfl ?_
  · refine Or.inr ⟨by simp, _, rfl, List.Perm.refl _, ?_⟩
    simp only [List.pairwise_cons, List.mem_singleton, forall_eq, List.not_mem_nil, false_imp_iff,
      implies_true, List.Pairwise.nil, and_true]
    exact .rel (by decide)
  · intro i h h'
    have h3 : i < 3 := h
    match i, h3 with
    | 0, _ => exact .text _
    | 1, _ => exact .empty _ _ _ (Or.inl ⟨rfl, rfl⟩)
    | 2, _ => exact .text _

example : Shows sample2 sampleVal ∧ sample2.Plain := ⟨sample2_shows, sample2_plain⟩

/-- C94: a document that ends within the root element is rejected: if expat reports only a
    beginning of an element tree, `parse` throws. -/
theorem short_document_throws (name : Str) (atts : List (Str × Str)) (sub : List Tree)
    (hw : (Tree.elem name atts sub).Wf) (n d : Nat) (hn : 2 ≤ n) (p q : List Event)
    (h : p ++ q = events (.elem name atts sub)) (hp : p ≠ []) (hq : q ≠ []) :
    parse n d p = .thrown (.error "xmlfile::parse(): Short file?") := by
  obtain ⟨v, hv, -⟩ := events_rebuild name atts sub hw n _ hn (Nat.le_refl _)
  unfold parse at hv
  rw [← h, handleAll_append] at hv
  cases hs : handleAll n .init p with
  | ok s =>
    have h1 := handleAll_height hs
    have h2 := bal_open name atts sub (bal_forest sub).2 p q h hq
    rw [if_neg hp] at h2
    have h0 : height .init = 0 := rfl
    unfold parse
    rw [hs, Outcome.bind_ok]
    unfold finish
    obtain ⟨es, root, stack⟩ := s
    match stack with
    | none => simp only [height] at h1 h0; omega
    | some [] => simp only [height, List.length_nil] at h1 h0; omega
    | some (_ :: _) => rfl
  | _ => rw [hs] at hv; cases hv

example : [Event.start [97] [], .text [120]] ++ [.stop [97]] =
    events (.elem [97] [] [.text [120]]) := rfl

/-- C70 for trees of plain text (`Tree.Plain`): writing a var that shows the tree succeeds; whatever
    way expat divides the text when fed with the lines of the file, reading succeeds and gives a var
    that shows the same document.  Missing for the full claim: text with newlines or carriage
    returns and attribute values with tabs, for which it is false (`newline_lost`); expat itself,
    in place of which stands the tokeniser of the specification. -/
theorem write_read_partial (name : Str) (atts : List (Str × Str)) (sub : List Tree) (v : Val)
    (hs : Shows (.elem name atts sub) v) (hp : (Tree.elem name atts sub).Plain) (n d : Nat)
    (hn : (Tree.elem name atts sub).depth + 3 ≤ n) (hd : (Tree.elem name atts sub).depth ≤ d) :
    ∃ w, write n v = .ok w ∧ ∀ fill fuel, w.length < fuel →
      ∃ f, fed fill fuel w = .ok f ∧ (∃ es, Reports f es) ∧
        ∀ es, Reports f es → ∃ v' t', parse n d es = .ok v' ∧ Shows t' v' ∧
          SameDoc t' (.elem name atts sub) := by
  obtain ⟨n, rfl⟩ : ∃ k, n = k + 3 := ⟨n - 3, by omega⟩
  have hw : writeElem (n + 3) v = .ok (some (render (.elem name atts sub))) := by
    rcases writeElem_spec hs (n + 2) hp (by omega) with h | ⟨-, -, s, h⟩
    · exact h
    · cases h
  refine ⟨declaration ++ render (.elem name atts sub) ++ [10], ?_, ?_⟩
  · unfold write; rw [hw, Outcome.bind_ok]
  intro fill fuel hf
  let decl : Str := declaration.take 38
  have hdecl : declaration = decl ++ [10] := rfl
  have hlines : LineSpec.Lines [decl, render (.elem name atts sub)] := by
    intro l hl
    simp only [List.mem_cons, List.not_mem_nil, or_false] at hl
    rcases hl with rfl | rfl
    · decide
    · exact render_lines _ hp
  have hterm : declaration ++ render (.elem name atts sub) ++ [10] =
      LineSpec.terminated [decl, render (.elem name atts sub)] := by
    rw [hdecl]; simp [LineSpec.terminated]
  have htok : tokens .prolog (decl ++ render (.elem name atts sub)) =
      some (.text false, bytewise (events (.elem name atts sub))) := by
    have e1 : tokens .prolog decl = some (.prolog, []) := by decide +kernel
    have := tokens_trans e1 (root_tokens name atts sub hp)
    simpa using this
  refine ⟨decl ++ render (.elem name atts sub), ?_, ?_, ?_⟩
  · unfold fed
    rw [hterm, GetLine.read_lines_partial fill _ hlines fuel (by rw [← hterm]; exact hf)]
    simp
  · refine ⟨bytewise (events (.elem name atts sub)), _, _, htok, ?_, ?_⟩
    · exact bytewise_idem _
    · exact bytewise_no_empty _
  · rintro es ⟨m, ts, h1, h2, h3⟩
    rw [htok] at h1
    simp only [Option.some.injEq, Prod.mk.injEq] at h1
    rw [← h1.2] at h2
    obtain ⟨sub', rfl, hc⟩ := divided_root name atts sub es h3 h2
    have hwf := plain_wf _ hp
    have hwf' : (Tree.elem name atts sub').Wf := by
      refine ⟨hwf.1, hwf.2.1, hwf.2.2.1, ?_⟩
      rw [← chopAll_wf, hc, chopAll_wf]; exact hwf.2.2.2
    have hdep : (Tree.elem name atts sub').depth ≤ d := by
      simp only [Tree.depth] at hd ⊢
      rw [← chopAll_depth, hc, chopAll_depth]; exact hd
    obtain ⟨v', g1, g2⟩ := parse_tree (n + 1) d name atts sub' hwf' hdep
    exact ⟨v', _, g1, g2, h2⟩

example : Shows sample2 sampleVal ∧ sample2.Plain ∧ sample2.depth + 3 ≤ 5 ∧
    ∃ w, write 5 sampleVal = .ok w :=
  ⟨sample2_shows, sample2_plain, by decide +kernel, by
    obtain ⟨w, h, -⟩ := write_read_partial _ _ _ _ sample2_shows sample2_plain 5 2 (by decide +kernel)
      (by decide +kernel)
    exact ⟨w, h⟩⟩

/-- `<a>x⏎y</a>` as a var -/
def twoLines : Val := .arr [.chars [97], .nil, .chars [116, 101, 120, 116],
  .arr [.chars [120, 10, 121]]]

/-- C70 fails for text with a newline: it is written, but the reader passes the lines on to expat
    without the newlines between them. -/
theorem newline_lost (fill : UInt8) :
    Shows (.elem [97] [] [.text [120, 10, 121]]) twoLines ∧
    ∃ w f es, write 5 twoLines = .ok w ∧ fed fill 100 w = .ok f ∧ Reports f es ∧
      parse 5 5 es = .ok (.arr [.chars [97], .nil, .chars [116, 101, 120, 116],
        .arr [.chars [120, 121]]]) := by
  refine ⟨?_, ?_⟩
  · refine .elem _ _ _ _ _ (Or.inl ⟨rfl, rfl⟩) (by simp) rfl ?_
    intro i h h'
    obtain rfl : i = 0 := by simpa using h
    exact .text _
  · have hw : write 5 twoLines =
        .ok (LineSpec.terminated [declaration.take 38, [60, 97, 62, 120], [121, 60, 47, 97, 62]]) := by
      decide +kernel
    refine ⟨_, declaration.take 38 ++ [60, 97, 62, 120] ++ [121, 60, 47, 97, 62],
      [.start [97] [], .text [120, 121], .stop [97]], hw, ?_, ⟨.text false, _, ?_, rfl, by simp⟩, rfl⟩
    · unfold fed
      rw [GetLine.read_lines_partial fill _ (by unfold LineSpec.Lines; decide) 100 (by decide)]
      simp
    · decide +kernel

/-- Neither comments nor white space around the root element are tolerated: whatever reaches the
    default handler, except a single carriage return, makes `parse` throw, whatever came before
    and comes after. -/
theorem other_throws (n d : Nat) (a b : List Event) (s : Str) (hs : s ≠ [13]) (st : State)
    (ha : handleAll n .init a = .ok st) :
    parse n d (a ++ .other s :: b) = .thrown (.error "xmlfile: default handler called") := by
  unfold parse
  rw [handleAll_append, ha, Outcome.bind_ok]
  simp [handleAll, handle, defaultHandler, hs]

-- a blank before `<a />`
example : Reports [32, 60, 97, 32, 47, 62] [.other [32], .start [97] [], .stop [97]] ∧
    parse 5 5 ([] ++ .other [32] :: [.start [97] [], .stop [97]]) =
      .thrown (.error "xmlfile: default handler called") :=
  ⟨⟨.text false, _, by decide +kernel, rfl, by simp⟩, other_throws 5 5 [] _ [32] (by decide) _ rfl⟩

end Libube.Xml

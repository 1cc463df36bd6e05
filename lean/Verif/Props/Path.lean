import Verif.Lemmas.Path

/-! # C116-C119: listing directories

`n` is the call depth granted to key comparisons (2 suffices), `d` bounds the depth of directories. -/

namespace Libube.Path

open Libube Libube.PathSpec

/-! ## Parts of a path -/

/-- C119: for every path, `bits` gives three strings that make up the path again; the extension begins with the last `.` of the name. -/
theorem bits_parts (q : List UInt8) : ∃ parent stem ext, bits q = .arr [.chars parent, .chars stem, .chars ext] ∧ PathParts q parent stem ext := by
  refine ⟨_, _, _, rfl, filename q, ?_, parts q, fun h => (rebuild q h).symm⟩
  obtain ⟨d, -, h, -⟩ := filename_split q
  exact h

-- "a/b.c.d", ".x", "/u"
example : bits [97, 47, 98, 46, 99, 46, 100] = .arr [.chars [97], .chars [98, 46, 99], .chars [46, 100]] := rfl
example : bits [46, 120] = .arr [.chars [], .chars [46, 120], .chars []] := rfl
example : bits [47, 117] = .arr [.chars [47], .chars [117], .chars []] := rfl
example : ¬ ∃ a b, ([97, 47, 98] : List UInt8) = a ++ [47, 47] ++ b := by
  rintro ⟨a, b, h⟩
  have h1 := congrArg List.length h
  simp at h1
  rcases a with _ | ⟨x, _ | ⟨y, a⟩⟩
  · simp at h
  · simp at h
  · simp at h1; omega

/-- C119: of an entry of a directory, the parent is the directory. -/
theorem bits_entry (p m : List UInt8) (hp : p = [47] ∨ p ≠ [] ∧ p.getLast? ≠ some 47) (hm : Name m) :
    ∃ stem ext, bits (child p m) = .arr [.chars p, .chars stem, .chars ext] ∧ Parts m stem ext := by
  have hf : filename (child p m) = m := by
    unfold child
    split
    · next h =>
      obtain ⟨r, rfl⟩ := List.getLast?_eq_some_iff.1 h
      exact filename_append _ _ hm.2.1 (.inr ⟨r, rfl⟩)
    · exact filename_append _ _ hm.2.1 (.inr ⟨p, rfl⟩)
  have hq : parentPath (child p m) = p := by
    obtain ⟨d, h1, h2, h3, h4⟩ := filename_split (child p m)
    rw [hf] at h1
    unfold parentPath
    rw [h4]
    rcases hp with rfl | ⟨hp, hl⟩
    · have : d = [47] := List.append_cancel_right (h1.symm.trans (show child [47] m = [47] ++ m from rfl))
      subst this
      decide
    · have : d = p ++ [47] := List.append_cancel_right (h1.symm.trans (by unfold child; rw [if_neg hl]))
      subst this
      rcases List.eq_nil_or_concat p with rfl | ⟨p', b, rfl⟩
      · exact absurd rfl hp
      · have hb : b ≠ 47 := by simpa using hl
        simp [hb]
  refine ⟨stem (child p m), extension (child p m), ?_, ?_⟩
  · unfold bits
    rw [hq]
  · have := parts (child p m)
    rwa [hf] at this

example : ([97] : List UInt8) ≠ [] ∧ ([97] : List UInt8).getLast? ≠ some 47 ∧ Name [98, 46, 99] := by simp [Name]

theorem told (asked : Bool) (q : List UInt8) : Told asked q (info asked q) := by
  unfold Told info
  cases asked
  · rfl
  · exact bits_parts q

theorem isMap_told {v : Val} {S : List UInt8 → Prop} {asked : Bool} (h : IsMap v S fun k x => x = info asked k) : IsMap v S (Told asked) := by
  rcases h with h | ⟨ps, h1, h2, h3, h4, h5⟩
  · exact .inl h
  · exact .inr ⟨ps, h1, h2, h3, fun e he => ⟨(h4 e he).1, by rw [(h4 e he).2]; exact told asked e.1⟩, h5⟩

/-- Two such maps are the same. -/
theorem isMap_unique {v w : Val} {S : List UInt8 → Prop} {f : List UInt8 → Val} (hv : IsMap v S fun k x => x = f k) (hw : IsMap w S fun k x => x = f k) : v = w := by
  rcases hv with ⟨rfl, hv⟩ | ⟨ps, h1, rfl, h3, h4, h5⟩ <;> rcases hw with ⟨rfl, hw⟩ | ⟨qs, g1, rfl, g3, g4, g5⟩
  · rfl
  · obtain ⟨e, qs, rfl⟩ := List.exists_cons_of_ne_nil g1
    exact absurd (g4 e (by simp)).1 (hv _)
  · obtain ⟨e, ps, rfl⟩ := List.exists_cons_of_ne_nil h1
    exact absurd (h4 e (by simp)).1 (hw _)
  · have nd : ∀ {l : List (List UInt8 × Val)}, l.Pairwise (fun a b => a.1 < b.1) → l.Nodup := fun h => h.imp fun h he => by subst he; exact bytes_irrefl _ h
    have sub : ∀ {l l' : List (List UInt8 × Val)}, (∀ e ∈ l, S e.1 ∧ e.2 = f e.1) → (∀ e ∈ l', S e.1 ∧ e.2 = f e.1) → (∀ k, S k → ∃ e ∈ l', e.1 = k) → ∀ e ∈ l, e ∈ l' := by
      intro l l' a b c e he
      obtain ⟨e', he', h⟩ := c e.1 (a e he).1
      have : e' = e := Prod.ext h (by rw [(b e' he').2, (a e he).2, h])
      rwa [← this]
    have hp : ps.Perm qs := (List.perm_ext_iff_of_nodup (nd h3) (nd g3)).2 fun e => ⟨sub h4 g4 g5 e, sub g4 h4 h5 e⟩
    rw [hp.eq_of_pairwise (le := fun a b => a.1 < b.1) (fun a b _ _ h1 h2 => absurd (bytes_trans h1 h2) (bytes_irrefl _)) h3 g3]

/-! ## dir -/

/-- C116: `dir` of a directory gives a map with the path of every entry, each once and in ascending order, and its parts if they are asked for. -/
theorem dir_lists (fs : Fs) {n : Nat} (hn : 2 ≤ n) {p : List UInt8} (hp : p ≠ []) (h0 : 0 ∉ p) {ms : List (List UInt8)} (h : fs.stat p = .dir ms)
    (hm : ∀ m ∈ ms, Name m) (asked : Bool) : ∃ v, dir fs n p asked = .ok v ∧ IsMap v (fun k => ∃ m ∈ ms, k = child p m) (Told asked) := by
  obtain ⟨d, e, hd⟩ := dirLoop_lists hn hp h0 ms (fun m h => (hm m h).2.2) (lists_nil asked)
  exact ⟨d, by simp only [dir, h, e], isMap_told (lists_isMap (lists_congr hd fun k => by simp))⟩

/-- C116: the order in which the names are read makes no difference. -/
theorem dir_order (fs fs' : Fs) {n : Nat} (hn : 2 ≤ n) {p : List UInt8} (hp : p ≠ []) (h0 : 0 ∉ p) {ms ms' : List (List UInt8)} (h : fs.stat p = .dir ms)
    (h' : fs'.stat p = .dir ms') (hm : ∀ m ∈ ms, Name m) (hs : ∀ m, m ∈ ms ↔ m ∈ ms') (asked : Bool) : dir fs n p asked = dir fs' n p asked := by
  obtain ⟨d, e, hd⟩ := dirLoop_lists hn hp h0 ms (fun m h => (hm m h).2.2) (lists_nil asked)
  obtain ⟨d', e', hd'⟩ := dirLoop_lists hn hp h0 ms' (fun m h => (hm m ((hs m).2 h)).2.2) (lists_nil asked)
  have : d = d' := isMap_unique (f := info asked) (lists_isMap hd) (lists_isMap (lists_congr hd' fun k => by simp [hs]))
  simp only [dir, h, h', e, e', this]

/-- C116: a path that is not there is an exception for all three functions; so is anything but a directory, except for `rdir`. -/
theorem absent_throws (fs : Fs) (n d : Nat) (p : List UInt8) (asked : Bool) :
    (fs.stat p = .absent → dir fs n p asked = .thrown (.error "dir: path doesn't exist") ∧ rdir fs n d p asked = .thrown (.error "rdir: path doesn't exist") ∧
      tree fs n (d + 1) p = .thrown (.error "tree: path doesn't exist")) ∧
    (fs.stat p = .file → dir fs n p asked = .thrown .ioFailure ∧ tree fs n (d + 1) p = .thrown .ioFailure) := by
  constructor <;> intro h <;> simp [dir, rdir, tree, h]

/-! ## rdir -/

/-- C117: `rdir` of a directory gives a map with the path of everything below it, each once and in ascending order; symbolic links are listed, but not
    followed. -/
theorem rdir_lists (fs : Fs) (hfs : Names fs) {n : Nat} (hn : 2 ≤ n) {p : List UInt8} (hp : p ≠ []) (h0 : 0 ∉ p) {d : Nat} (h : Readable fs d p)
    (asked : Bool) : ∃ v, rdir fs n d p asked = .ok v ∧ IsMap v (Below fs p) (Told asked) := by
  obtain ⟨ms, hs, hw⟩ := walk_lists hfs hn asked d hp h0 h
  obtain ⟨v, e, hv⟩ := hw .nil _ (lists_nil asked)
  exact ⟨v, by simp only [rdir, hs, e], isMap_told (lists_isMap (lists_congr hv fun k => by simp))⟩

/-- C117: `rdir` of a file gives the file itself. -/
theorem rdir_file (fs : Fs) {n : Nat} (hn : 2 ≤ n) {p : List UInt8} (h0 : 0 ∉ p) (d : Nat) (h : fs.stat p = .file) (asked : Bool) :
    ∃ v, rdir fs n d p asked = .ok v ∧ IsMap v (fun k => k = p) (Told asked) := by
  obtain ⟨v, e, hv⟩ := setKey_lists hn (lists_nil asked) h0
  exact ⟨v, by simp only [rdir, h, e], isMap_told (lists_isMap (lists_congr hv fun k => by simp))⟩

/-! ## tree -/

/-- C118: `tree` of a directory shows the directory and all directories below it, symbolic links being followed.
    Missing: directories that hold nothing are not shown as such (`tree_empty`), and symbolic links must not lead back (`tree_loop_throws`). -/
theorem tree_partial (fs : Fs) (hfs : Names fs) {n : Nat} (hn : 2 ≤ n) {p : List UInt8} (hp : p ≠ []) (h0 : 0 ∉ p) {d : Nat} (h : Followable fs d p) :
    ∃ v, tree fs n d p = .ok v ∧ Mirrors fs p v :=
  (tree_mirrors hfs hn d hp h0 h).2

/-- C118 fails: a directory that holds nothing is nil, as a file is. -/
theorem tree_empty (fs : Fs) {n : Nat} (hn : 2 ≤ n) {p f e : List UInt8} (hp : p ≠ []) (hf : Name f) (he : Name e) (hfe : f ≠ e) (h : fs.stat p = .dir [f, e])
    (h1 : fs.stat (child p f) = .file) (h2 : fs.stat (child p e) = .dir []) {d : Nat} (hd : 2 ≤ d) :
    ∃ a b, tree fs n d p = .ok (.map [(a, .nil), (b, .nil)]) := by
  obtain ⟨d, rfl⟩ : ∃ c, d = c + 2 := ⟨d - 2, by omega⟩
  obtain ⟨v, e1, h1'⟩ := treeLoop_holds (rec := tree fs n (d + 1)) hn hp (fun _ => .nil) [f, e] (by simp [hf.2.2, he.2.2]) (fs := fs) (by
    intro m hm
    rcases List.mem_pair.1 hm with rfl | rfl
    · simp [branch, h1]
    · simp [branch, h2, tree, treeLoop]) (d := .nil) (S := []) (by simpa using holds_nil)
  have e2 : tree fs n (d + 2) p = .ok v := by rw [tree, h]; exact e1
  rw [e2]
  rcases holds_isMap h1' with ⟨-, hk⟩ | ⟨ps, -, rfl, hs, h3, h4⟩
  · simpa using hk f
  · have hmem : ∀ x ∈ ps, (x.1 = f ∨ x.1 = e) ∧ x.2 = .nil := by
      intro x hx
      have := h3 x hx
      split at this
      · next h => exact ⟨by simpa using h, (Option.some.inj this).symm⟩
      · cases this
    have m1 := h4 f .nil (by simp)
    have m2 := h4 e .nil (by simp)
    have nd : ps.Nodup := hs.imp fun h he => by subst he; exact bytes_irrefl _ h
    have hp : ps.Perm [(f, Val.nil), (e, Val.nil)] := by
      refine (List.perm_ext_iff_of_nodup nd (by simp [hfe])).2 fun x => ⟨fun hx => ?_, fun hx => ?_⟩
      · obtain ⟨h | h, h'⟩ := hmem x hx
        · simp [← h, ← h']
        · simp [← h, ← h']
      · rcases List.mem_pair.1 hx with rfl | rfl
        · exact m1
        · exact m2
    have hl := hp.length_eq
    obtain ⟨x, y, rfl⟩ : ∃ x y, ps = [x, y] := by
      rcases ps with _ | ⟨x, _ | ⟨y, _ | ⟨z, ps⟩⟩⟩ <;> simp at hl
      exact ⟨x, y, rfl⟩
    exact ⟨.chars x.1, .chars y.1, by simp [(hmem x (by simp)).2, (hmem y (by simp)).2]⟩

/-- C118 fails: a symbolic link to the directory it is in is followed until the system refuses, which is an exception. -/
theorem tree_loop_throws (fs : Fs) (n : Nat) {p l : List UInt8} (hp : p ≠ []) {k : Nat} (h : ∀ i ≤ k, fs.stat (chain p l i) = .dir [l])
    (he : fs.stat (chain p l (k + 1)) = .error) {d : Nat} (hd : k < d) : tree fs n d p = .thrown .ioFailure := by
  have ne : ∀ i, chain p l i ≠ [] := by
    intro i
    induction i with
    | zero => exact hp
    | succ i ih => exact child_ne ih l
  have step : ∀ j i, i + j = k → ∀ d, j < d → tree fs n d (chain p l i) = .thrown .ioFailure := by
    intro j
    induction j with
    | zero =>
      intro i hi d hd
      obtain ⟨d, rfl⟩ : ∃ c, d = c + 1 := ⟨d - 1, by omega⟩
      have hb : fs.stat (child (chain p l i) l) = .error := by
        have : i = k := by omega
        subst this
        exact he
      simp [tree, h i (by omega), treeLoop, join_eq (ne i), branch, hb]
    | succ j ih =>
      intro i hi d hd
      obtain ⟨d, rfl⟩ : ∃ c, d = c + 1 := ⟨d - 1, by omega⟩
      have hb : fs.stat (child (chain p l i) l) = .dir [l] := h (i + 1) (by omega)
      have ht := ih (i + 1) (by omega) d (by omega)
      simp only [chain] at ht
      simp [tree, h i (by omega), treeLoop, join_eq (ne i), branch, hb, ht]
  exact step k 0 (by omega) d hd

/-- C116 – C118: nothing is left out in silence: if something that has to be read cannot be, there is no list. -/
theorem lists_complete (fs : Fs) {n d : Nat} {p : List UInt8} (hp : p ≠ []) {v : Val} {asked : Bool} :
    (dir fs n p asked = .ok v → ∃ ms, fs.stat p = .dir ms) ∧ (rdir fs n d p asked = .ok v → fs.stat p = .file ∨ Readable fs d p) ∧ (tree fs n d p = .ok v → Followable fs d p) := by
  refine ⟨fun h => ?_, fun h => ?_, tree_followable d hp⟩
  · unfold dir at h
    split at h <;> first | exact ⟨_, ‹_›⟩ | cases h
  · unfold rdir at h
    split at h
    · cases h
    · cases h
    · exact .inl ‹_›
    · cases h
    · exact .inr (walk_readable d hp ‹_› h)

/-- C116 – C118: a path that cannot be read is an exception for all three functions. -/
theorem unreadable_throws (fs : Fs) (n d : Nat) (p : List UInt8) (asked : Bool) (h : fs.stat p = .closed ∨ fs.stat p = .error) :
    dir fs n p asked = .thrown .ioFailure ∧ rdir fs n d p asked = .thrown .ioFailure ∧ tree fs n (d + 1) p = .thrown .ioFailure := by
  rcases h with h | h <;> simp [dir, rdir, tree, h]

/-! ## Examples -/

/-- `d` holds a file `b.c` and a directory `a` with a file `x` in it. -/
def small : Fs where
  stat p :=
    if p = [100] then .dir [[98, 46, 99], [97]]
    else if p = [100, 47, 97] then .dir [[120]]
    else if p = [100, 47, 98, 46, 99] ∨ p = [100, 47, 97, 47, 120] then .file
    else .absent
  link _ := false

theorem small_names : Names small := by
  intro p ms h m hm
  simp only [small] at h
  split at h
  · cases h
    simp only [List.mem_cons, List.not_mem_nil, or_false] at hm
    rcases hm with rfl | rfl <;> simp [Name]
  · split at h
    · cases h
      rw [List.mem_singleton] at hm
      subst hm
      simp [Name]
    · split at h <;> cases h

theorem small_readable : Readable small 2 [100] ∧ Followable small 2 [100] := by
  constructor
  · refine ⟨_, rfl, ?_⟩
    simp only [List.mem_cons, List.not_mem_nil, or_false]
    rintro m (rfl | rfl) -
    · exact .inl rfl
    · refine .inr (.inr ⟨_, rfl, ?_⟩)
      rintro m hm -
      rw [List.mem_singleton] at hm
      subst hm
      exact .inl rfl
  · refine ⟨_, rfl, ?_⟩
    simp only [List.mem_cons, List.not_mem_nil, or_false]
    rintro m (rfl | rfl)
    · exact .inl rfl
    · refine .inr (.inr ⟨_, rfl, ?_⟩)
      intro m hm
      rw [List.mem_singleton] at hm
      subst hm
      exact .inl rfl

/-- The lists of `lists_complete` exist. -/
example : (∃ v, dir small 2 [100] true = .ok v) ∧ (∃ v, rdir small 2 2 [100] true = .ok v) ∧ ∃ v, tree small 2 2 [100] = .ok v := by
  have hr : Readable small 2 [100] ∧ Followable small 2 [100] := small_readable
  exact ⟨(dir_lists small (n := 2) (by omega) (p := [100]) (by simp) (by simp) rfl (small_names [100] _ rfl) true).imp fun _ h => h.1,
    (rdir_lists small small_names (n := 2) (by omega) (by simp) (by simp) hr.1 true).imp fun _ h => h.1,
    (tree_partial small small_names (n := 2) (by omega) (by simp) (by simp) hr.2).imp fun _ h => h.1⟩

/-- A directory that may not be read. -/
example : (⟨fun _ => .closed, fun _ => false⟩ : Fs).stat [100] = .closed ∨ (⟨fun _ => .closed, fun _ => false⟩ : Fs).stat [100] = .error := .inl rfl

example : Below small [100] [100, 47, 97, 47, 120] := .deeper (.here (m := [97]) rfl (by simp)) rfl (m := [120]) rfl (by simp)

/-- `d` holds only a symbolic link `l` to `d`; the system follows 40 links in a path. -/
def loop : Fs where
  stat p := if p ∈ (List.range 41).map (chain [100] [108]) then .dir [[108]] else if p = chain [100] [108] 41 then .error else .absent
  link p := p ≠ [100]

example : (∀ i ≤ 40, loop.stat (chain [100] [108] i) = .dir [[108]]) ∧ loop.stat (chain [100] [108] 41) = .error ∧ Readable loop 1 [100] := by
  refine ⟨fun i hi => if_pos (List.mem_map.2 ⟨i, List.mem_range.2 (by omega), rfl⟩), ?_, ⟨[[108]], by decide +kernel, fun m hm hl => ?_⟩⟩
  · have : chain [100] [108] 41 ∉ (List.range 41).map (chain [100] [108]) := by decide +kernel
    simp only [loop, if_neg this, if_true]
  · rw [List.mem_singleton] at hm
    subst hm
    simp [loop, child] at hl

/-- `d` holds a file `f` and an empty directory `e`. -/
example : ∃ fs : Fs, fs.stat [100] = .dir [[102], [101]] ∧ fs.stat (child [100] [102]) = .file ∧ fs.stat (child [100] [101]) = .dir [] :=
  ⟨⟨fun p => if p = [100] then .dir [[102], [101]] else if p = [100, 47, 101] then .dir [] else .file, fun _ => false⟩, rfl, rfl, rfl⟩

#print axioms bits_parts
#print axioms bits_entry
#print axioms dir_lists
#print axioms dir_order
#print axioms absent_throws
#print axioms rdir_lists
#print axioms rdir_file
#print axioms tree_partial
#print axioms tree_empty
#print axioms tree_loop_throws
#print axioms lists_complete
#print axioms unreadable_throws

end Libube.Path

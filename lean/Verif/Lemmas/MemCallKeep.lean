import Verif.Lemmas.MemFunKeep
import Verif.Model.MemSort

/-! # Counts are kept by comparing, searching, sorting and printing -/

namespace Libube.Mem

variable {α : Type}

/-- One step of a call that gives no var. -/
macro "keep1" : tactic => `(tactic| first
  | assumption
  | exact Keep.undef
  | exact Keep.throwE
  | exact Keep.pure _ fun _ => rfl
  | exact fun _ _ _ => trivial
  | refine RO.bind_keep (readLoc_ro _) fun _ => ?_
  | refine RO.bind_keep (heapOf_ro _) fun _ => ?_
  | refine RO.bind_keep (sizeV_ro _) fun _ => ?_
  | refine RO.bind_keep (typeV_ro _) fun _ => ?_
  | refine RO.bind_keep (atypeV_ro _) fun _ => ?_
  | refine RO.bind_keep (charPtr_ro _) fun _ => ?_
  | refine RO.bind_keep (definedV_ro _) fun _ => ?_
  | refine RO.bind_keep (rawAt_ro _ _) fun _ => ?_
  | refine RO.bind_keep (getV_ro _ _) fun _ => ?_
  | refine RO.bind_keep (obj_ro _) fun _ => ?_
  | split)

theorem heapAt_keep [Env α] {lk : Bool} (a : Addr) (i : Nat) : Keep lk (heapAt a i : M α (V α)) [] (fun w => w.ptr.toList) := by
  unfold heapAt
  repeat' first | exact copyV_keep _ | exact boxed_keep _ _ | keep1

theorem pairwise_keep [Env α] {lk : Bool} {f : V α → V α → M α Bool} (h : ∀ v w, Keep lk (f v w) [] (fun _ => [])) (a : Addr) (b : Option Addr) (i : Nat) :
    Keep lk (pairwise f a b i) [] (fun _ => []) := by
  refine (heapAt_keep a i).bind fun v => Keep.withVar fun l => ?_
  cases b with
  | none => exact Keep.undef
  | some b =>
    refine (heapAt_keep b i).bind fun w => Keep.withVar fun m => ?_
    repeat' first | exact h _ _ | keep1

theorem anyLoop_keep {lk : Bool} {f : Nat → M α Bool} (h : ∀ i, Keep lk (f i) [] (fun _ => [])) (n : Nat) : ∀ i, Keep lk (anyLoop f i n) [] (fun _ => []) := by
  induction n with
  | zero => exact fun i => Keep.pure _ fun _ => rfl
  | succ n ih =>
    intro i
    unfold anyLoop
    refine (h i).bind fun b => ?_
    repeat' first | exact ih _ | keep1

theorem neqV_keep [Env α] {lk : Bool} (N : Numbers α) (n : Nat) : ∀ v w, Keep lk (neqV N n v w) [] (fun _ => []) := by
  induction n with
  | zero => exact fun v w _ _ _ => trivial
  | succ n ih =>
    intro v w
    unfold neqV
    repeat' first | exact anyLoop_keep (pairwise_keep ih _ _) _ _ | keep1

theorem cmpChars_keep {lk : Bool} (N : Numbers α) (a b : Addr) (n : Nat) : ∀ i, Keep lk (cmpChars N a b i n) [] (fun _ => []) := by
  induction n with
  | zero => exact fun i => Keep.undef
  | succ n ih =>
    intro i
    unfold cmpChars
    repeat' first | exact ih _ | keep1

theorem heapLt_keep [Env α] {lk : Bool} (N : Numbers α) {f : V α → V α → M α Bool} (h : ∀ v w, Keep lk (f v w) [] (fun _ => [])) (a b : Addr) :
    Keep lk (heapLt N f a b) [] (fun _ => []) := by
  unfold heapLt
  repeat' first | exact anyLoop_keep (pairwise_keep h _ _) _ _ | exact cmpChars_keep _ _ _ _ _ | keep1

theorem ltV_keep [Env α] {lk : Bool} (N : Numbers α) (n : Nat) : ∀ v w, Keep lk (ltV N n v w) [] (fun _ => []) := by
  induction n with
  | zero => exact fun v w _ _ _ => trivial
  | succ n ih =>
    intro v w
    unfold ltV
    repeat' first | exact heapLt_keep N ih _ _ | keep1

theorem callOp_keep {lk : Bool} {f : V α → V α → M α Bool} (h : ∀ v w, Keep lk (f v w) [] (fun _ => [])) (v w : V α) : Keep lk (callOp f v w) [] (fun _ => []) :=
  (copyV_keep w).bind fun _ => Keep.withVar fun l => (readLoc_ro l).bind_keep fun _ => h _ _

theorem eqV_keep [Env α] {lk : Bool} (N : Numbers α) (n : Nat) (v w : V α) : Keep lk (eqV N n v w) [] (fun _ => []) :=
  (copyV_keep w).bind fun _ => Keep.withVar fun l => (readLoc_ro l).bind_keep fun x => (callOp_keep (neqV_keep N n) v x).bind fun _ => Keep.pure _ fun _ => rfl

theorem differ_keep [Env α] {lk : Bool} (N : Numbers α) (n m k : Nat) : Keep lk (differ N n m k) [] (fun _ => []) :=
  (readLoc_ro _).bind_keep fun _ => (readLoc_ro _).bind_keep fun _ => callOp_keep (neqV_keep N n) _ _

theorem equal_keep [Env α] {lk : Bool} (N : Numbers α) (n m k : Nat) : Keep lk (equal N n m k) [] (fun _ => []) :=
  (readLoc_ro _).bind_keep fun _ => (readLoc_ro _).bind_keep fun _ => eqV_keep N n _ _

theorem less_keep [Env α] {lk : Bool} (N : Numbers α) (n m k : Nat) : Keep lk (less N n m k) [] (fun _ => []) :=
  (readLoc_ro _).bind_keep fun _ => (readLoc_ro _).bind_keep fun _ => callOp_keep (ltV_keep N n) _ _

theorem keyAt_keep {lk : Bool} (v : V α) (i : Nat) : Keep lk (keyAt v i) [] (fun w => w.ptr.toList) := by
  unfold keyAt
  repeat' first | exact copyV_keep _ | keep1

theorem searchV_keep [Env α] {lk : Bool} (N : Numbers α) (n : Nat) {x : Nat → M α (V α)} (h : ∀ p, Keep lk (x p) [] (fun w => w.ptr.toList)) (w : V α) (f : Nat) :
    ∀ lo hi, Keep lk (searchV N n x w f lo hi) [] (fun _ => []) := by
  induction f with
  | zero => exact fun lo hi _ _ _ => trivial
  | succ f ih =>
    intro lo hi
    unfold searchV
    split
    · exact Keep.pure _ fun _ => rfl
    · refine (h _).bind fun t => Keep.bind (mid := fun _ => []) (Keep.withVar fun l => (readLoc_ro l).bind_keep fun _ => callOp_keep (ltV_keep N n) _ _) fun r => ?_
      repeat' first | exact ih _ _ | keep1

theorem binaryV_keep [Env α] {lk : Bool} (N : Numbers α) (n : Nat) (v w : V α) : Keep lk (binaryV N n v w) [] (fun _ => []) := by
  unfold binaryV
  repeat' first | exact searchV_keep N n (fun p => at'_keep _ _) _ _ _ _ | exact searchV_keep N n (fun p => keyAt_keep _ _) _ _ _ _ | keep1

theorem findLoop_keep {lk : Bool} {f : Nat → M α Bool} (h : ∀ i, Keep lk (f i) [] (fun _ => [])) (m : Nat) : ∀ i, Keep lk (findLoop f i m) [] (fun _ => []) := by
  induction m with
  | zero => exact fun i => Keep.pure _ fun _ => rfl
  | succ m ih =>
    intro i
    unfold findLoop
    refine (h i).bind fun b => ?_
    repeat' first | exact ih _ | keep1

theorem indexV_keep [Env α] {lk : Bool} (N : Numbers α) (n : Nat) (v w : V α) : Keep lk (indexV N n v w) [] (fun _ => []) := by
  unfold indexV
  refine (definedV_ro v).bind_keep fun b => ?_
  split
  · exact Keep.pure _ fun _ => rfl
  · refine (atypeV_ro v).bind_keep fun k => ?_
    split
    · refine (copyV_keep w).bind fun _ => Keep.bind (mid := fun _ => []) (Keep.withVar fun l => (readLoc_ro l).bind_keep fun _ => binaryV_keep N n _ _) fun p => ?_
      refine (sizeV_ro v).bind_keep fun s => ?_
      split
      · refine (heapOf_ro v).bind_keep fun a => ?_
        split
        · exact Keep.undef
        · refine (readLoc_ro _).bind_keep fun x => (eqV_keep N n _ _).bind fun b => ?_
          repeat' keep1
      · exact Keep.pure _ fun _ => rfl
    · exact (sizeV_ro v).bind_keep fun s => findLoop_keep (fun i => (at'_keep _ _).bind fun t => Keep.withVar fun l => (readLoc_ro l).bind_keep fun _ => eqV_keep N n _ _) _ _

theorem indexOf_keep [Env α] {lk : Bool} (N : Numbers α) (n m k : Nat) : Keep lk (indexOf N n m k) [] (fun _ => []) :=
  (readLoc_ro _).bind_keep fun _ => (copyV_keep _).bind fun _ => Keep.withVar fun l => (readLoc_ro _).bind_keep fun _ => (readLoc_ro _).bind_keep fun _ => indexV_keep N n _ _

theorem sortFrom_keep [Env α] {lk : Bool} (N : Numbers α) (n : Nat) (v : V α) (r : Loc) (m : Nat) : ∀ i, Keep lk (sortFrom N n v r i m) [] (fun _ => []) := by
  induction m with
  | zero => exact fun i => Keep.pure _ fun _ => rfl
  | succ m ih =>
    intro i
    unfold sortFrom
    refine (sizeV_ro v).bind_keep fun s => ?_
    split
    · refine (at'_keep _ _).bind fun t => Keep.bind (mid := fun _ => [])
        (Keep.withVar fun l => (readLoc_ro _).bind_keep fun _ => (readLoc_ro _).bind_keep fun _ => binaryV_keep N n _ _) fun p => ?_
      exact (at'_keep _ _).bind fun t => (insert_keep _ _ _).bind fun _ => ih _
    · exact Keep.pure _ fun _ => rfl

theorem sortV_keep [Env α] {lk : Bool} (N : Numbers α) (n : Nat) (v : V α) : Keep lk (sortV N n v) [] (fun w => w.ptr.toList) := by
  unfold sortV
  exact Keep.withVar (v := .nil) fun r => (sizeV_ro v).bind_keep fun m => (presize_keep r m).bind fun _ => (sortFrom_keep N n v r m 0).bind fun _ =>
    (readLoc_ro r).bind_keep fun w => copyV_keep w

theorem putChars_keep [Env α] [DecidableEq α] {lk : Bool} (p : Printer α) (a : Addr) (n : Nat) : ∀ i, Keep lk (putChars p a i n) [] (fun _ => []) := by
  induction n with
  | zero => exact fun i => Keep.undef
  | succ n ih =>
    intro i
    unfold putChars
    refine (rawAt_ro _ _).bind_keep fun x => ?_
    split
    · exact Keep.pure _ fun _ => rfl
    · exact (ih _).bind fun _ => Keep.pure _ fun _ => rfl

theorem putLoop_keep {lk : Bool} {f : Nat → M α CString.Bytes} (h : ∀ i, Keep lk (f i) [] (fun _ => [])) (n : Nat) : ∀ i, Keep lk (putLoop f i n) [] (fun _ => []) := by
  induction n with
  | zero => exact fun i => Keep.pure _ fun _ => rfl
  | succ n ih => exact fun i => (h i).bind fun _ => (ih _).bind fun _ => Keep.pure _ fun _ => rfl

theorem putVar_keep {lk : Bool} {f : Loc → M α CString.Bytes} (h : ∀ l, Keep lk (f l) [] (fun _ => [])) (v : V α) : Keep lk (putVar f v) v.ptr.toList (fun _ => []) :=
  Keep.withVar fun l => (readLoc_ro l).bind_keep fun _ => (copyV_keep _).bind fun _ => Keep.withVar h

theorem formatArray_keep [Env α] [DecidableEq α] {lk : Bool} (p : Printer α) {f : Nat → Loc → M α CString.Bytes} (h : ∀ i l, Keep lk (f i l) [] (fun _ => []))
    (ind : Nat) (l : Loc) : Keep lk (formatArray p f ind l) [] (fun _ => []) := by
  unfold formatArray
  refine (readLoc_ro l).bind_keep fun v => (atypeV_ro v).bind_keep fun k => ?_
  split
  · refine (charPtr_ro v).bind_keep fun x => ?_
    split
    · exact Keep.undef
    · exact (obj_ro _).bind_keep fun o => (putChars_keep p _ _ _).bind fun _ => Keep.pure _ fun _ => rfl
  · refine (sizeV_ro v).bind_keep fun n => (putLoop_keep (fun i => ?_) _ _).bind fun _ => Keep.pure _ fun _ => rfl
    refine (keyAt_keep _ _).bind fun t => (putVar_keep (h 0) t).bind fun k => (index_keep _ _).bind fun t => ?_
    exact (Keep.withVar (h _)).bind fun _ => Keep.pure _ fun _ => rfl
  · refine (sizeV_ro v).bind_keep fun n => (putLoop_keep (fun i => ?_) _ _).bind fun _ => Keep.pure _ fun _ => rfl
    exact (index_keep _ _).bind fun t => (Keep.withVar (h _)).bind fun _ => Keep.pure _ fun _ => rfl
  · refine (charPtr_ro v).bind_keep fun x => ?_
    split
    · exact Keep.undef
    · refine (sizeV_ro v).bind_keep fun n => ?_
      split
      · exact (rawAt_ro _ _).bind_keep fun _ => Keep.pure _ fun _ => rfl
      · exact (putLoop_keep (fun i => Keep.pure _ fun _ => rfl) _ _).bind fun _ => Keep.pure _ fun _ => rfl
  · refine (sizeV_ro v).bind_keep fun n => (putLoop_keep (fun i => ?_) _ _).bind fun _ => Keep.pure _ fun _ => rfl
    exact (at'_keep _ _).bind fun t => (putVar_keep (h 0) t).bind fun _ => Keep.pure _ fun _ => rfl

theorem format_keep [Env α] [DecidableEq α] {lk : Bool} (p : Printer α) (n : Nat) : ∀ ind l, Keep lk (format p n ind l) [] (fun _ => []) := by
  induction n with
  | zero => exact fun ind l _ _ _ => trivial
  | succ n ih =>
    intro ind l
    unfold format
    refine (readLoc_ro l).bind_keep fun v => (typeV_ro v).bind_keep fun t => ?_
    split
    · refine (heapOf_ro v).bind_keep fun x => ?_
      split
      · exact Keep.pure _ fun _ => rfl
      · exact (copyV_keep v).bind fun c => Keep.withVar (formatArray_keep p ih ind)
    all_goals repeat' keep1

theorem print_keep [Env α] [DecidableEq α] {lk : Bool} (p : Printer α) (n m : Nat) : Keep lk (print p n m) [] (fun _ => []) :=
  (readLoc_ro _).bind_keep fun _ => (copyV_keep _).bind fun _ => putVar_keep (format_keep p n 0) _

end Libube.Mem

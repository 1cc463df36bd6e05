import Verif.Lemmas.MemFrame

/-! # What comparing, searching, sorting and printing leave alone -/

namespace Libube.Mem

variable {α β γ : Type} {f : Fr α}

/-- One step of a call. -/
macro "fr1" : tactic => `(tactic| first
  | assumption
  | exact Fr.H.pure trivial
  | exact Fr.H.undef
  | exact Fr.H.throwE
  | exact fun _ _ => trivial
  | exact (copyV_frame _).any
  | exact at'_any _ _
  | exact RO.frame (readLoc_ro _)
  | exact RO.frame (heapOf_ro _)
  | exact RO.frame (sizeV_ro _)
  | exact RO.frame (typeV_ro _)
  | exact RO.frame (atypeV_ro _)
  | exact RO.frame (charPtr_ro _)
  | exact RO.frame (definedV_ro _)
  | exact RO.frame (rawAt_ro _ _)
  | exact RO.frame (getV_ro _ _)
  | exact RO.frame (obj_ro _)
  | refine withVar_frame fun _ _ => ?_
  | refine Fr.H.bind (Q := Any) ?_ fun _ _ => ?_
  | split)

theorem heapAt_frame [Env α] (a : Addr) (i : Nat) : f.H (heapAt a i) Any := by
  unfold heapAt
  repeat' first | exact boxed_frame _ _ | fr1

theorem pairwise_frame [Env α] {g : V α → V α → M α Bool} (h : ∀ v w, f.H (g v w) Any) (a : Addr) (b : Option Addr) (i : Nat) : f.H (pairwise g a b i) Any := by
  unfold pairwise
  repeat' first | exact heapAt_frame _ _ | exact h _ _ | fr1

theorem anyLoop_frame {g : Nat → M α Bool} (h : ∀ i, f.H (g i) Any) (n : Nat) : ∀ i, f.H (anyLoop g i n) Any := by
  induction n with
  | zero => exact fun i => .pure trivial
  | succ n ih =>
    intro i
    unfold anyLoop
    repeat' first | exact h _ | exact ih _ | fr1

theorem neqV_frame [Env α] (N : Numbers α) (n : Nat) : ∀ v w, f.H (neqV N n v w) Any := by
  induction n with
  | zero => exact fun v w _ _ => trivial
  | succ n ih =>
    intro v w
    unfold neqV
    repeat' first | exact anyLoop_frame (pairwise_frame ih _ _) _ _ | fr1

theorem cmpChars_frame (N : Numbers α) (a b : Addr) (n : Nat) : ∀ i, f.H (cmpChars N a b i n) Any := by
  induction n with
  | zero => exact fun i => .undef
  | succ n ih =>
    intro i
    unfold cmpChars
    repeat' first | exact ih _ | fr1

theorem ltV_frame [Env α] (N : Numbers α) (n : Nat) : ∀ v w, f.H (ltV N n v w) Any := by
  induction n with
  | zero => exact fun v w _ _ => trivial
  | succ n ih =>
    intro v w
    unfold ltV heapLt
    repeat' first | exact anyLoop_frame (pairwise_frame ih _ _) _ _ | exact cmpChars_frame _ _ _ _ _ | fr1

theorem callOp_frame {g : V α → V α → M α Bool} (h : ∀ v w, f.H (g v w) Any) (v w : V α) : f.H (callOp g v w) Any := by
  unfold callOp
  repeat' first | exact h _ _ | fr1

theorem eqV_frame [Env α] (N : Numbers α) (n : Nat) (v w : V α) : f.H (eqV N n v w) Any := by
  unfold eqV
  repeat' first | exact callOp_frame (neqV_frame N n) _ _ | fr1

theorem keyAt_frame (v : V α) (i : Nat) : f.H (keyAt v i) Any := by
  unfold keyAt
  repeat' fr1

theorem searchV_frame [Env α] (N : Numbers α) (n : Nat) {x : Nat → M α (V α)} (h : ∀ p, f.H (x p) Any) (w : V α) (k : Nat) : ∀ lo hi, f.H (searchV N n x w k lo hi) Any := by
  induction k with
  | zero => exact fun lo hi _ _ => trivial
  | succ k ih =>
    intro lo hi
    unfold searchV
    repeat' first | exact h _ | exact callOp_frame (ltV_frame N n) _ _ | exact ih _ _ | fr1

theorem binaryV_frame [Env α] (N : Numbers α) (n : Nat) (v w : V α) : f.H (binaryV N n v w) Any := by
  unfold binaryV
  repeat' first | exact searchV_frame N n (fun p => at'_any _ _) _ _ _ _ | exact searchV_frame N n (fun p => keyAt_frame _ _) _ _ _ _ | fr1

theorem findLoop_frame {g : Nat → M α Bool} (h : ∀ i, f.H (g i) Any) (m : Nat) : ∀ i, f.H (findLoop g i m) Any := by
  induction m with
  | zero => exact fun i => .pure trivial
  | succ m ih =>
    intro i
    unfold findLoop
    repeat' first | exact h _ | exact ih _ | fr1

theorem indexV_frame [Env α] (N : Numbers α) (n : Nat) (v w : V α) : f.H (indexV N n v w) Any := by
  unfold indexV
  repeat' first | exact binaryV_frame N n _ _ | exact eqV_frame N n _ _ |
    exact findLoop_frame (fun i => .bind (at'_any _ _) fun _ _ => withVar_frame fun _ _ => .bind (RO.frame (readLoc_ro _)) fun _ _ => eqV_frame N n _ _) _ _ | fr1

theorem sortFrom_frame [Env α] (hn : f.NoF) (N : Numbers α) (n : Nat) (v : V α) {r : Loc} (hr : f.Free r) (m : Nat) : ∀ i, f.H (sortFrom N n v r i m) Any := by
  induction m with
  | zero => exact fun i => .pure trivial
  | succ m ih =>
    intro i
    unfold sortFrom
    repeat' first | exact binaryV_frame N n _ _ | exact insert_frame hn (.inr ⟨hr, hn⟩) _ _ | exact ih _ | fr1

theorem sortV_frame [Env α] (hn : f.NoF) (N : Numbers α) (n : Nat) (v : V α) : f.H (sortV N n v) Any := by
  refine withVar_frame fun r hr => ?_
  repeat' first | exact presize_frame _ (.inr ⟨hr, hn⟩) | exact sortFrom_frame hn N n _ hr _ _ | fr1

theorem putChars_frame [Env α] [DecidableEq α] (p : Printer α) (a : Addr) (n : Nat) : ∀ i, f.H (putChars p a i n) Any := by
  induction n with
  | zero => exact fun i => .undef
  | succ n ih =>
    intro i
    unfold putChars
    repeat' first | exact ih _ | fr1

theorem putLoop_frame {g : Nat → M α CString.Bytes} (h : ∀ i, f.H (g i) Any) (n : Nat) : ∀ i, f.H (putLoop g i n) Any := by
  induction n with
  | zero => exact fun i => .pure trivial
  | succ n ih => exact fun i => .bind (h i) fun _ _ => .bind (ih _) fun _ _ => .pure trivial

theorem putVar_frame {g : Loc → M α CString.Bytes} (h : ∀ l, f.Free l → f.H (g l) Any) (v : V α) : f.H (putVar g v) Any :=
  withVar_frame fun _ _ => .bind (RO.frame (readLoc_ro _)) fun _ _ => .bind (copyV_frame _) fun _ _ => withVar_frame fun _ hl => h _ hl

theorem formatArray_frame [Env α] [DecidableEq α] (hn : f.NoF) (p : Printer α) {g : Nat → Loc → M α CString.Bytes} (h : ∀ i l, f.Free l → f.H (g i l) Any) (ind : Nat)
    {l : Loc} (hl : f.Free l) : f.H (formatArray p g ind l) Any := by
  have hp : ∀ v, f.H (putVar (g 0) v) Any := putVar_frame (h 0)
  have hw : ∀ v k, f.H (withVar v (g k)) Any := fun v k => withVar_frame fun _ hl => h _ _ hl
  have hx : ∀ i, f.H (index l i) Any := fun i => (index_frame i (.inr ⟨hl, hn⟩)).any
  unfold formatArray
  refine .bind (RO.frame (readLoc_ro l)) fun v _ => .bind (RO.frame (atypeV_ro v)) fun k _ => ?_
  split
  · refine .bind (RO.frame (charPtr_ro v)) fun x _ => ?_
    repeat' first | exact putChars_frame p _ _ _ | fr1
  · refine .bind (RO.frame (sizeV_ro v)) fun n _ => .bind (putLoop_frame (fun i => ?_) _ _) fun _ _ => .pure trivial
    repeat' first | exact keyAt_frame _ _ | exact hp _ | exact hx _ | exact hw _ _ | fr1
  · refine .bind (RO.frame (sizeV_ro v)) fun n _ => .bind (putLoop_frame (fun i => ?_) _ _) fun _ _ => .pure trivial
    repeat' first | exact hx _ | exact hw _ _ | fr1
  · refine .bind (RO.frame (charPtr_ro v)) fun x _ => ?_
    repeat' first | exact putLoop_frame (fun i => .pure trivial) _ _ | fr1
  · refine .bind (RO.frame (sizeV_ro v)) fun n _ => .bind (putLoop_frame (fun i => ?_) _ _) fun _ _ => .pure trivial
    repeat' first | exact hp _ | fr1

theorem format_frame [Env α] [DecidableEq α] (hn : f.NoF) (p : Printer α) (n : Nat) : ∀ ind l, f.Free l → f.H (format p n ind l) Any := by
  induction n with
  | zero => exact fun ind l _ _ _ => trivial
  | succ n ih =>
    intro ind l _
    have hw : ∀ v, f.H (withVar v (formatArray p (format p n) ind)) Any := fun v => withVar_frame fun _ hl => formatArray_frame hn p ih ind hl
    unfold format
    repeat' first | exact hw _ | fr1

end Libube.Mem

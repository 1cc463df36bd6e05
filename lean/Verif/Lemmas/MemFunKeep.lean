import Verif.Lemmas.MemKeep
import Verif.Model.MemArith

/-! # Counts are kept by calls of functors -/

namespace Libube.Mem

variable {α : Type}

theorem newStr_keep [Env α] {lk : Bool} (cs : List α) : Keep lk (newStr cs) [] (fun w => w.ptr.toList) := by
  refine Keep.of_ok (NT.bind (liftO_nt (resizeObj_nt _ _)) fun o => NT.bind (by intro s e s'; simp [pushObj])
    fun _ => NT.pure _) fun s own b s' hi h => ?_
  obtain ⟨o, s1, ho, h2⟩ := bind_ok h
  obtain ⟨rfl, ho'⟩ := liftO_ok ho
  obtain ⟨hk, hrc, -, hty, -, -⟩ := resizeObj_ok (by intro c hc; exact absurd hc List.not_mem_nil) ho'
  simp only at hk hrc
  cases h2
  have hkk : o.kind ≠ .var ∧ o.kind ≠ .pair := by rw [hk]; decide
  have hty' : Obj.Typed { o with cells := cs.map (fun x => Cell.raw (some x)) ++ o.cells.drop cs.length } := by
    intro c hc
    rcases List.mem_append.1 hc with h | h
    · obtain ⟨x, -, rfl⟩ := List.mem_map.1 h
      exact hkk
    · exact hty c (List.mem_of_mem_drop h)
  have hnil : Obj.ptrs { o with cells := cs.map (fun x => Cell.raw (some x)) ++ o.cells.drop cs.length } = [] :=
    flatMap_ptrs_nil fun c hc => raw_ptrs hkk (hty' c hc)
  obtain ⟨h1, -⟩ := newObj_ok (s := s1) (own := own)
    (o := { o with cells := cs.map (fun x => Cell.raw (some x)) ++ o.cells.drop cs.length })
    (by rw [hnil]; exact hi) hrc hty'
  exact ⟨by simpa [V.ptr] using h1, rfl⟩

theorem newNum_keep [Env α] {lk : Bool} (k : Kind) (x : α) :
    Keep lk (newNum k x) [] (fun w => w.ptr.toList) := by
  unfold newNum
  split
  · exact Keep.undef
  · exact boxed_keep k x


theorem attach_with_keep [Env α] {lk : Bool} {v : V α} {f : Loc → M α β} {post : β → List Addr} (h : ∀ l, Keep lk (f l) [] post) :
    Keep lk (attachV v >>= fun _ => withVar v f) [] post :=
  (attachV_keep v).bind fun _ => Keep.withVar h

theorem RO.ite {c : Prop} [Decidable c] {m n : M α β} (h1 : RO m) (h2 : RO n) : RO (if c then m else n) := by
  split
  · exact h1
  · exact h2

theorem atypeV_ro (v : V α) : RO (atypeV v) := by
  refine (derefV_ro v).bind fun w => ?_
  cases w with
  | nil => exact .throwE
  | num k x => exact .pure _
  | bad k => exact .pure _
  | arr a => exact (obj_ro a).bind fun _ => .pure _
  | ref a i => exact (obj_ro a).bind fun _ => .pure _

theorem mathType_ro (v : V α) : RO (mathType v) :=
  (typeV_ro v).bind fun _ => (atypeV_ro v).bind fun _ => .pure _

theorem broadcast_keep [Env α] {lk : Bool} {sc : V α → Loc → M α Unit} (h : ∀ v l, Keep lk (sc v l) [] (fun _ => [])) (v : V α) (lo : Loc) (n : Nat) :
    ∀ i, Keep lk (broadcast sc v lo i n) [] (fun _ => []) := by
  induction n with
  | zero => exact fun i => Keep.pure _ fun _ => rfl
  | succ n ih =>
    intro i
    unfold broadcast
    refine (readLoc_ro _).bind_keep fun o => (at'_keep o i).bind fun r => ?_
    refine Keep.bind (mid := fun _ => []) (Keep.withVar fun lr => (at'_keep v i).bind fun t => Keep.withVar fun _ => h t lr) fun _ => ih (i + 1)

theorem scalar_keep [Env α] {lk : Bool} (F : Fn α) (d : Nat) : ∀ (v : V α) (lo : Loc), Keep lk (scalar F d v lo) [] (fun _ => []) := by
  induction d with
  | zero => exact fun v lo s own _ => trivial
  | succ d ih =>
    intro v lo
    unfold scalar
    refine (mathType_ro v).bind_keep fun t => ?_
    cases t with
    | none => exact attach_with_keep fun _ => (sizeV_ro v).bind_keep fun n => broadcast_keep ih v lo n 0
    | some k =>
      simp only
      split
      · exact (getV_ro k v).bind_keep fun x => (newNum_keep _ _).bind fun r => assign_keep lo r
      · exact Keep.throwE

theorem newHeap_keep [Env α] {lk : Bool} (n : Nat) (k : Option Kind) : Keep lk (newHeap n k : M α Addr) [] (fun b => [b]) :=
  Keep.of_ok (newHeap_nt _ _) fun s own b s' hi h => by
    obtain ⟨h1, h2, -⟩ := newHeap_ok h hi
    exact ⟨by simpa using h1, by rw [h2]⟩

theorem applyTo_keep [Env α] {lk : Bool} (F : Fn α) (d n m : Nat) : Keep lk (applyTo F d n m) [] (fun w => w.ptr.toList) :=
  (readLoc_ro _).bind_keep fun v => (scalar_keep F d v _).bind fun _ => (readLoc_ro _).bind_keep fun w => copyV_keep w

/-- The rest of a call that makes a new var. -/
theorem into_keep [Env α] {lk : Bool} {f : Loc → M α Unit} (h : ∀ l, Keep lk (f l) [] (fun _ => [])) (r : V α) :
    Keep lk (withVar .nil fun lr => do
      assign lr r
      f lr
      copyV (← readLoc lr)) r.ptr.toList (fun w => w.ptr.toList) := by
  have := Keep.withVar' (lk := lk) (v := (.nil : V α)) (pre := r.ptr.toList) (f := fun lr => do
      assign lr r
      f lr
      copyV (← readLoc lr)) fun l => (assign_keep l r).bind fun _ => (h l).bind fun _ => (readLoc_ro _).bind_keep fun w => copyV_keep w
  exact this.congr fun a => by simp [V.ptr]

theorem applyNew_keep [Env α] {lk : Bool} (F : Fn α) (d n : Nat) : Keep lk (applyNew F d n) [] (fun w => w.ptr.toList) := by
  unfold applyNew
  refine (readLoc_ro _).bind_keep fun v => (heapOf_ro v).bind_keep fun x => ?_
  cases x with
  | none => exact (copyV_keep v).bind fun r => into_keep (fun l => scalar_keep F d v l) r
  | some a =>
    exact (obj_ro a).bind_keep fun o => (newHeap_keep _ _).bind fun b => into_keep (fun l => scalar_keep F d v l) (.arr b)

/-! ## Strings -/

theorem strCall_keep [Env α] {lk : Bool} {S : StrFn α} (h : ∀ b v l, Keep lk (S b v l) [] (fun _ => [])) (d : Nat) :
    ∀ (same : Bool) (v : V α) (lo : Loc), Keep lk (strCall S d same v lo) [] (fun _ => []) := by
  induction d with
  | zero => exact fun same v lo s own _ => trivial
  | succ d ih =>
    intro same v lo
    unfold strCall
    refine (atypeV_ro v).bind_keep fun k => ?_
    split
    · exact h same v lo
    · exact attach_with_keep fun _ => (sizeV_ro v).bind_keep fun n => broadcast_keep (ih false) v lo n 0

theorem strTo_keep [Env α] {lk : Bool} {S : StrFn α} (h : ∀ b v l, Keep lk (S b v l) [] (fun _ => [])) (d n m : Nat) : Keep lk (strTo S d n m) [] (fun w => w.ptr.toList) :=
  (readLoc_ro _).bind_keep fun v => (strCall_keep h d _ v _).bind fun _ => (readLoc_ro _).bind_keep fun w => copyV_keep w

theorem strNew_keep [Env α] {lk : Bool} {S : StrFn α} (h : ∀ b v l, Keep lk (S b v l) [] (fun _ => [])) (d n : Nat) : Keep lk (strNew S d n) [] (fun w => w.ptr.toList) := by
  unfold strNew
  refine (readLoc_ro _).bind_keep fun v => (heapOf_ro v).bind_keep fun x => ?_
  cases x with
  | none => exact (copyV_keep v).bind fun r => into_keep (fun l => strCall_keep h d false v l) r
  | some a =>
    exact (obj_ro a).bind_keep fun o => (newHeap_keep _ _).bind fun b => into_keep (fun l => strCall_keep h d false v l) (.arr b)

theorem isSame_ro (same : Bool) (v : V α) (lo : Loc) : RO (isSame same v lo) := by
  unfold isSame
  refine .ite (.pure _) ((readLoc_ro _).bind fun o => (heapOf_ro v).bind fun x => ?_)
  cases x with
  | none => exact .pure _
  | some a =>
    refine (heapOf_ro o).bind fun y => ?_
    cases y <;> exact .pure _

theorem charAt_ro (v : V α) (i : Nat) : RO (charAt v i) := by
  refine (derefV_ro v).bind fun w => ?_
  split
  · exact rawAt_ro _ _
  · exact .ite (.pure _) .undef
  · exact rawAt_ro _ _
  · exact .undef

/-- A call after reading a variable or an element. -/
theorem readLoc_keep {lk : Bool} {l : Loc} {f : V α → M α β} {post : β → List Addr}
    (h : ∀ v s own, Inv s own → readLoc l s = .ok v s → Post lk s.stk.length own post (f v s)) : Keep lk (readLoc l >>= f) [] post := by
  intro s own hi
  cases hr : readLoc l s with
  | ok v s1 =>
    obtain rfl := readLoc_ok hr
    rw [bind_eq hr]
    exact h v s1 own hi hr
  | thrown e s1 =>
    have := (readLoc_ro l).keep (lk := lk) s own hi
    rw [hr] at this
    show Post lk _ own post (M.bind _ _ _)
    unfold M.bind
    rw [hr]
    exact this
  | ub u => show Post lk _ own post (M.bind _ _ _); unfold M.bind; rw [hr]; trivial
  | abort => show Post lk _ own post (M.bind _ _ _); unfold M.bind; rw [hr]; trivial
  | diverge => show Post lk _ own post (M.bind _ _ _); unfold M.bind; rw [hr]; trivial

/-- Writing a number over a number. -/
theorem writeNum_keep {lk : Bool} (l : Loc) {k j : Kind} {x y : α} {s : State α} {own : List Addr} (hi : Inv s own) (h : readLoc l s = .ok (.num k x) s) :
    Post lk s.stk.length own (fun _ => []) (writeLoc l (.num j y) s) := by
  obtain ⟨s', h1, h2, h3, -⟩ := writeLoc_ok (v := .num j y) (own' := own) h hi fun a => rfl
  rw [h1]
  exact ⟨[], fun _ => rfl, by simpa using h2, h3⟩

theorem setChar_keep {lk : Bool} (lo : Loc) (i : Nat) (x : α) : Keep lk (setChar lo i x) [] (fun _ => []) := by
  refine readLoc_keep fun v s own hi hr => ?_
  split
  · exact setRaw_keep _ _ _ s own hi
  · split
    · exact writeNum_keep lo hi hr
    · trivial
  · rename_i b j
    refine RO.bind_keep (derefLoc_ro b j) (fun r => ?_) s own hi
    cases r with
    | none => exact setRaw_keep _ _ _
    | some r =>
      refine readLoc_keep fun v s own hi hr => ?_
      split
      · exact setRaw_keep _ _ _ s own hi
      · split
        · exact writeNum_keep r hi hr
        · trivial
      · trivial
  · trivial

theorem mapChars_keep {lk : Bool} (f : α → α) (v : V α) (lo : Loc) (n : Nat) : ∀ i, Keep lk (mapChars f v lo i n) [] (fun _ => []) := by
  induction n with
  | zero => exact fun i => Keep.pure _ fun _ => rfl
  | succ n ih => exact fun i => (charAt_ro v i).bind_keep fun x => (setChar_keep lo i _).bind fun _ => ih (i + 1)

theorem mapCase_keep [Env α] {lk : Bool} (f : α → α) (same : Bool) (v : V α) (lo : Loc) : Keep lk (mapCase f same v lo) [] (fun _ => []) := by
  unfold mapCase
  refine (isSame_ro same v lo).bind_keep fun b => ?_
  split
  · exact (sizeV_ro v).bind_keep fun n => mapChars_keep f v lo n 0
  · exact (newStr_keep []).bind fun e => (assign_keep lo e).bind fun _ => (sizeV_ro v).bind_keep fun n => (resize_keep lo n).bind fun _ => (sizeV_ro v).bind_keep fun n => mapChars_keep f v lo n 0

theorem readChars_ro (a : Addr) (n : Nat) : ∀ i, RO (readChars a i n : M α (List α)) := by
  induction n with
  | zero => exact fun i => .pure _
  | succ n ih => exact fun i => (rawAt_ro a i).bind fun x => (ih (i + 1)).bind fun xs => .pure _

theorem textV_ro (v : V α) : RO (textV v) := by
  refine (heapOf_ro v).bind fun x => ?_
  cases x with
  | none => exact .pure _
  | some a => exact (obj_ro a).bind fun o => readChars_ro a _ _

theorem matched_ro (a : Option Addr) (p l : Nat) : RO (matched a p l : M α (List α)) := by
  cases a with
  | none => exact .ite (.pure _) .undef
  | some a => exact readChars_ro a _ _

theorem putMatches_keep [Env α] {lk : Bool} (a : Option Addr) (lo : Loc) (ms : List (Nat × Nat)) : ∀ i, Keep lk (putMatches a lo i ms : M α Unit) [] (fun _ => []) := by
  induction ms with
  | nil => exact fun i => Keep.pure _ fun _ => rfl
  | cons m ms ih => exact fun i => (matched_ro a _ _).bind_keep fun xs => (newStr_keep xs).bind fun r => (setIndex_keep lo i r).bind fun _ => ih (i + 1)

theorem findIn_keep [Env α] {lk : Bool} (re : List α → Option (List (Nat × Nat))) (same : Bool) (v : V α) (lo : Loc) : Keep lk (findIn re same v lo) [] (fun _ => []) := by
  refine (heapOf_ro v).bind_keep fun a => (textV_ro v).bind_keep fun s => (assign_keep lo .nil).bind fun _ => ?_
  split
  · exact Keep.pure _ fun _ => rfl
  · exact putMatches_keep a lo _ 0

theorem replaceIn_keep [Env α] {lk : Bool} (re : List α → List α) (same : Bool) (v : V α) (lo : Loc) : Keep lk (replaceIn re same v lo) [] (fun _ => []) :=
  (textV_ro v).bind_keep fun s => (newStr_keep _).bind fun r => assign_keep lo r

theorem charPtr_ro (v : V α) : RO (charPtr v) := by
  refine (derefV_ro v).bind fun w => ?_
  cases w <;> exact .pure _

theorem leading_ro (sp : α → Bool) (v : V α) (n : Nat) : ∀ i, RO (leading sp v i n) := by
  induction n with
  | zero => exact fun i => .pure _
  | succ n ih => exact fun i => (charAt_ro v i).bind fun x => .ite (ih (i + 1)) (.pure _)

theorem trailing_ro (sp : α → Bool) (v : V α) (n : Nat) : ∀ t, RO (trailing sp v n t) := by
  induction n with
  | zero => exact fun i => .pure _
  | succ n ih => exact fun t => (charAt_ro v n).bind fun x => .ite (ih (t + 1)) (.pure _)

theorem moveChars_keep {lk : Bool} (a : Addr) (j d n : Nat) : ∀ i, Keep lk (moveChars a j d i n : M α Unit) [] (fun _ => []) := by
  induction n with
  | zero => exact fun i => Keep.pure _ fun _ => rfl
  | succ n ih => exact fun i => (rawAt_ro a _).bind_keep fun x => (setRaw_keep a _ x).bind fun _ => ih (i + 1)

theorem copyChars_keep {lk : Bool} (v : V α) (op : Option (Addr × Nat)) (d n : Nat) : ∀ i, Keep lk (copyChars v op d i n) [] (fun _ => []) := by
  induction n with
  | zero => exact fun i => Keep.pure _ fun _ => rfl
  | succ n ih =>
    refine fun i => (charAt_ro v _).bind_keep fun x => ?_
    rcases op with _ | ⟨a, j⟩
    · exact Keep.undef
    · exact (setRaw_keep a _ x).bind fun _ => ih (i + 1)

theorem stripMove_keep {lk : Bool} (op : Option (Addr × Nat)) (l : Nat) (m : Int) : Keep lk (stripMove op l m : M α Unit) [] (fun _ => []) := by
  unfold stripMove
  split
  · exact Keep.pure _ fun _ => rfl
  · split
    · exact Keep.undef
    · rcases op with _ | ⟨a, j⟩
      · exact Keep.undef
      · exact moveChars_keep a j l _ 0

theorem stripIn_keep [Env α] {lk : Bool} (sp : α → Bool) (same : Bool) (v : V α) (lo : Loc) : Keep lk (stripIn sp same v lo) [] (fun _ => []) := by
  refine (readLoc_ro _).bind_keep fun o => (charPtr_ro o).bind_keep fun op => (sizeV_ro v).bind_keep fun n => (leading_ro sp v n 0).bind_keep fun l => (trailing_ro sp v n 0).bind_keep fun t =>
    (isSame_ro same v lo).bind_keep fun b => ?_
  split
  · refine (stripMove_keep op l _).bind fun _ => (readLoc_ro _).bind_keep fun o => (sizeV_ro o).bind_keep fun k => ?_
    split
    · exact resize_keep lo _
    · exact Keep.pure _ fun _ => rfl
  · exact (newStr_keep []).bind fun e => (assign_keep lo e).bind fun _ => (resize_keep lo _).bind fun _ => copyChars_keep v op l _ 0

theorem StrOp.fn_keep [Env α] {lk : Bool} (S : StrOp α) (same : Bool) (v : V α) (lo : Loc) : Keep lk (S.fn same v lo) [] (fun _ => []) := by
  cases S with
  | case f => exact mapCase_keep f same v lo
  | find re => exact findIn_keep re same v lo
  | replace re => exact replaceIn_keep re same v lo
  | strip sp => exact stripIn_keep sp same v lo

/-! ## Arithmetic -/

theorem elemAt_ro (v : V α) (j : Nat) : RO (elemAt v j) := by
  refine (derefV_ro v).bind fun w => ?_
  split
  · exact rawAt_ro _ _
  · exact .undef

theorem Bin.apply_ro (F : Bin α) (k : Kind) (x y : α) : RO (F.apply k x y) := by
  unfold Bin.apply
  exact .ite (.pure _) .undef

theorem setTyped_keep {lk : Bool} (k : Kind) (b : Addr) (i : Nat) (x : α) : Keep lk (setTyped k b i x) [] (fun _ => []) := by
  refine (obj_ro b).bind_keep fun o => ?_
  split
  · exact setRaw_keep _ _ _
  · exact Keep.undef

theorem setPlain_keep {lk : Bool} (k : Kind) (l : Loc) (i : Nat) (x : α) : Keep lk (setPlain k l i x) [] (fun _ => []) := by
  refine readLoc_keep fun v s own hi hr => ?_
  split
  · exact setTyped_keep _ _ _ _ s own hi
  · split
    · exact writeNum_keep l hi hr
    · trivial
  · trivial

theorem setPtr_keep {lk : Bool} (k : Kind) (lo : Loc) (i : Nat) (x : α) : Keep lk (setPtr k lo i x) [] (fun _ => []) := by
  refine (readLoc_ro _).bind_keep fun v => ?_
  split
  · rename_i b j
    refine (derefLoc_ro b j).bind_keep fun r => ?_
    cases r with
    | none => exact setTyped_keep _ _ _ _
    | some r => exact setPlain_keep _ _ _ _
  · exact setPlain_keep _ _ _ _

theorem scaleLoop_keep {lk : Bool} (F : Bin α) (k : Kind) (v : V α) (y : α) (lo : Loc) (n : Nat) : ∀ j, Keep lk (scaleLoop F k v y lo j n) [] (fun _ => []) := by
  induction n with
  | zero => exact fun j => Keep.pure _ fun _ => rfl
  | succ n ih =>
    exact fun j => (elemAt_ro v j).bind_keep fun x => (F.apply_ro k x y).bind_keep fun z => (setPtr_keep k lo j z).bind fun _ => ih (j + 1)

theorem vecLoop_keep {lk : Bool} (F : Bin α) (k : Kind) (v w : V α) (lo : Loc) (n : Nat) : ∀ j, Keep lk (vecLoop F k v w lo j n) [] (fun _ => []) := by
  induction n with
  | zero => exact fun j => Keep.pure _ fun _ => rfl
  | succ n ih =>
    exact fun j => (elemAt_ro w j).bind_keep fun y => (elemAt_ro v j).bind_keep fun x => (F.apply_ro k x y).bind_keep fun z => (setPtr_keep k lo j z).bind fun _ => ih (j + 1)

theorem vectorArr_keep [Env α] {lk : Bool} (F : Bin α) (k : Kind) (v w : V α) (lv lw lo : Loc) : Keep lk (vectorArr F k v w lv lw lo) [] (fun _ => []) := by
  unfold vectorArr
  split
  · exact (index_keep lv 0).bind fun _ => Keep.withVar fun _ => (index_keep lw 0).bind fun _ => Keep.withVar fun _ => (index_keep lo 0).bind fun _ => Keep.withVar fun _ => Keep.throwE
  · refine (isSame_ro _ _ _).bind_keep fun b => ?_
    split
    · exact fun s own _ => trivial
    · refine (sizeV_ro w).bind_keep fun n => ?_
      split
      · exact vecLoop_keep _ _ _ _ _ _ _
      · exact Keep.throwE

theorem arithArr_keep [Env α] {lk : Bool} (F : Bin α) {sc : V α → Loc → M α Unit} (h : ∀ v l, Keep lk (sc v l) [] (fun _ => [])) (v w : V α) (lv lw lo : Loc) :
    Keep lk (arithArr F sc v w lv lw lo) [] (fun _ => []) := by
  unfold arithArr scaleArr
  refine (sizeV_ro w).bind_keep fun m => ?_
  split
  · split
    · refine (sizeV_ro v).bind_keep fun n => (atypeV_ro v).bind_keep fun k => ?_
      split
      · exact (castV_ro k w).bind_keep fun y => scaleLoop_keep _ _ _ _ _ _ _
      · exact Keep.throwE
    · exact (sizeV_ro v).bind_keep fun n => broadcast_keep h v lo n 0
  · refine (atypeV_ro v).bind_keep fun k => (atypeV_ro w).bind_keep fun j => ?_
    split
    · exact Keep.throwE
    · refine (sizeV_ro v).bind_keep fun n => ?_
      split
      · exact Keep.undef
      · exact vectorArr_keep _ _ _ _ _ _ _

theorem arith_keep [Env α] {lk : Bool} (F : Bin α) (d : Nat) : ∀ (v w : V α) (lo : Loc), Keep lk (arith F d v w lo) [] (fun _ => []) := by
  induction d with
  | zero => exact fun v w lo s own _ => trivial
  | succ d ih =>
    intro v w lo
    unfold arith
    refine (mathType_ro v).bind_keep fun t => ?_
    cases t with
    | none => exact attach_with_keep fun lv => attach_with_keep fun lw => arithArr_keep F (fun t l => ih t w l) v w lv lw lo
    | some k =>
      simp only
      split
      · refine (getV_ro k v).bind_keep fun x => (castV_ro k w).bind_keep fun y => (F.apply_ro k x y).bind_keep fun z => ?_
        unfold Bin.store
        split
        · exact (newNum_keep _ _).bind fun r => assign_keep lo r
        · exact setPtr_keep _ _ _ _
      · exact Keep.throwE

theorem arithTo_keep [Env α] {lk : Bool} (F : Bin α) (d n : Nat) (w : V α) (m : Nat) : Keep lk (arithTo F d n w m) w.ptr.toList (fun w => w.ptr.toList) :=
  Keep.withVar fun _ => (readLoc_ro _).bind_keep fun v => (arith_keep F d v w _).bind fun _ => (readLoc_ro _).bind_keep fun u => copyV_keep u

theorem arithNew_keep [Env α] {lk : Bool} (F : Bin α) (d n : Nat) (w : V α) : Keep lk (arithNew F d n w) w.ptr.toList (fun w => w.ptr.toList) := by
  unfold arithNew
  refine Keep.withVar fun _ => (readLoc_ro _).bind_keep fun v => (heapOf_ro v).bind_keep fun x => ?_
  cases x with
  | none => exact (copyV_keep v).bind fun r => into_keep (fun l => arith_keep F d v w l) r
  | some a =>
    exact (obj_ro a).bind_keep fun o => (newHeap_keep _ _).bind fun b => into_keep (fun l => arith_keep F d v w l) (.arr b)

end Libube.Mem

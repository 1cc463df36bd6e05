import Verif.Lemmas.GedAny

/-! # Evaluating the GEDCOM reader on given files -/

namespace Libube.Ged

open Libube Libube.CString Libube.StringFns Libube.GedSpec

/-- Equality of the values that occur, to a given depth. -/
def same : Nat → Val → Val → Bool
  | 0, _, _ => false
  | _ + 1, .nil, .nil => true
  | _ + 1, .chars a, .chars b => a == b
  | _ + 1, .int a, .int b => a == b
  | _ + 1, .ints a, .ints b => a == b
  | n + 1, .arr a, .arr b => a.length == b.length && (a.zip b).all fun p => same n p.1 p.2
  | n + 1, .map a, .map b => a.length == b.length && (a.zip b).all fun p => same n p.1.1 p.2.1 && same n p.1.2 p.2.2
  | _ + 1, _, _ => false

theorem zip_eq {α : Type} (a b : List α) (hl : a.length = b.length) (h : ∀ p ∈ a.zip b, p.1 = p.2) : a = b := by
  induction a generalizing b with
  | nil => cases b with
    | nil => rfl
    | cons y b => simp at hl
  | cons x a ih => cases b with
    | nil => simp at hl
    | cons y b =>
      rw [show x = y from h (x, y) (by simp), ih b (by simpa using hl) fun p hp => h p (by simp [hp])]

theorem same_eq (n : Nat) (a b : Val) (h : same n a b = true) : a = b := by
  induction n generalizing a b with
  | zero => simp [same] at h
  | succ n ih =>
    cases a <;> cases b <;> simp [same] at h <;> try (subst h; rfl)
    · rfl
    · obtain ⟨h1, h2⟩ := h
      exact congrArg Val.arr (zip_eq _ _ h1 fun p hp => ih _ _ (h2 p.1 p.2 hp))
    · obtain ⟨h1, h2⟩ := h
      exact congrArg Val.map (zip_eq _ _ h1 fun p hp => Prod.ext (ih _ _ (h2 _ _ _ _ hp).1) (ih _ _ (h2 _ _ _ _ hp).2))

theorem getline_fill (fill : UInt8) (r : Bytes) : GetLine.getline fill [] r = GetLine.getline 0 [] r := by
  by_cases hr : r = []
  · subst hr; rw [GetLine.getline_end, GetLine.getline_end]
  · by_cases h10 : (10 : UInt8) ∈ r
    · obtain ⟨a, b, rfl, ha⟩ := List.eq_append_cons_of_mem h10
      rw [GetLine.getline_line _ _ _ _ ha, GetLine.getline_line _ _ _ _ ha]
    · rw [GetLine.getline_last _ _ _ h10 hr, GetLine.getline_last _ _ _ h10 hr]

theorem readLine_fill (fill : UInt8) : readLine fill = readLine 0 := by
  funext s
  simp only [readLine, nextLine, getline_fill fill]

theorem skip_fill (fill : UInt8) : skip fill = skip 0 := by
  funext L n s
  induction n generalizing s with
  | zero => rfl
  | succ n ih => simp only [skip, readLine_fill fill, ih]

theorem birth_fill (fill : UInt8) : birth fill = birth 0 := by
  funext L n l s
  induction n generalizing s l with
  | zero => rfl
  | succ n ih => simp only [birth, readLine_fill fill, skip_fill fill, ih]

theorem indi_fill (fill : UInt8) : indi fill = indi 0 := by
  funext L n l p s
  induction n generalizing s l p with
  | zero => rfl
  | succ n ih => simp only [indi, readLine_fill fill, skip_fill fill, birth_fill fill, ih]

theorem fam_fill (fill : UInt8) : fam fill = fam 0 := by
  funext d L n l p s
  induction n generalizing s l p with
  | zero => rfl
  | succ n ih => simp only [fam, readLine_fill fill, birth_fill fill, ih]

theorem record_fill (fill : UInt8) : record fill = record 0 := by
  funext d n s
  simp only [record, readLine_fill fill, skip_fill fill, indi_fill fill, fam_fill fill]

theorem file_fill (fill : UInt8) : file fill = file 0 := by
  funext d L n l s
  induction n generalizing s l with
  | zero => rfl
  | succ n ih => simp only [file, readLine_fill fill, skip_fill fill, record_fill fill, ih]

/-- Uninitialised memory is not read. -/
theorem load_fill (fill : UInt8) : load fill = load 0 := by
  funext d n c s
  simp only [load, readLine_fill fill, file_fill fill]

theorem read_fill (fill : UInt8) (d n : Nat) (c : Bytes) : read fill d n c = read 0 d n c := by
  simp only [read, load_fill fill]

theorem readAgain_fill (fill : UInt8) (d n : Nat) (a b : Bytes) : readAgain fill d n a b = readAgain 0 d n a b := by
  simp only [readAgain, load_fill fill]

theorem read_eval (fill : UInt8) (d n : Nat) (c : Bytes) (v : Val) (h : (match read 0 d n c with | .ok w => same 9 w v | _ => false) = true) :
    read fill d n c = .ok v := by
  rw [read_fill]
  cases hr : read 0 d n c with
  | ok w => rw [hr] at h; rw [same_eq _ _ _ h]
  | _ => rw [hr] at h; cases h

theorem read_ub (fill : UInt8) (d n : Nat) (c : Bytes) (h : (match read 0 d n c with | .ub .outOfBounds => true | _ => false) = true) :
    read fill d n c = .ub .outOfBounds := by
  rw [read_fill]
  cases hr : read 0 d n c with
  | ub r => rw [hr] at h; cases r <;> first | rfl | cases h
  | _ => rw [hr] at h; cases h

theorem readAgain_eval (fill : UInt8) (d n : Nat) (a b : Bytes) (v : Val)
    (h : (match readAgain 0 d n a b with | .ok w => same 9 w v | _ => false) = true) : readAgain fill d n a b = .ok v := by
  rw [readAgain_fill]
  cases hr : readAgain 0 d n a b with
  | ok w => rw [hr] at h; rw [same_eq _ _ _ h]
  | _ => rw [hr] at h; cases h

end Libube.Ged

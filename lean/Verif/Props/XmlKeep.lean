import Verif.Model.XmlKeep
import Verif.Props.Xml

/-! # C167: what writing an XML document does to the document -/

namespace Libube.XmlKeep

open Libube Libube.CString Libube.XmlSpec

/-! ## Specification -/

/-- The var is a single number or character. -/
def Number : Val → Prop
  | .char _ | .int _ | .long _ | .float _ | .double _ | .cfloat _ _ => True
  | _ => False

/-- Four vars, the third the word "text": an element.  `d` is the fourth, its data. -/
def Element (v d : Val) : Prop :=
  ∃ name attr type, v.elems = [name, attr, type, d] ∧ type.elems = [.char 116, .char 101, .char 120, .char 116]

/-- `w` is `v` itself or among the data of an element that is part of `v`. -/
inductive Part : Val → Val → Prop
  | self (v) : Part v v
  | inside (v d x w) : Element v d → x ∈ d.elems → Part x w → Part v w

/-- Some element of the document has a single number for data, instead of an array. -/
def HasNumber (v : Val) : Prop :=
  ∃ w d, Part v w ∧ Element w d ∧ Number d

/-! ## Proofs -/

theorem neq_char {n : Nat} {x : Val} {c : UInt8} (h : neq n x (.char c) = .ok false) : x = .char c := by
  cases n with
  | zero => simp [neq] at h
  | succ n =>
    cases x <;> simp [neq, Val.type, Val.size] at h
    rw [h]

theorem neqLoop_chars {n : Nat} : ∀ (xs : List Val) (cs : List UInt8), xs.length = cs.length →
    neqLoop (neq n) xs (cs.map .char) = .ok false → xs = cs.map .char
  | [], [], _, _ => rfl
  | x :: xs, c :: cs, hl, h => by
    simp only [List.map_cons, neqLoop] at h
    cases hx : neq n x (.char c) with
    | ok b =>
      rw [hx, Outcome.bind_ok] at h
      cases b with
      | true => simp at h
      | false =>
        rw [neq_char hx, List.map_cons, neqLoop_chars xs cs (by simpa using hl) (by simpa using h)]
    | _ => rw [hx] at h; cases h

theorem text_of_neq {n : Nat} {t : Val} (h : neq n t (.chars Xml.textWord) = .ok false) :
    t.elems = [.char 116, .char 101, .char 120, .char 116] := by
  cases n with
  | zero => simp [neq] at h
  | succ n =>
    unfold neq at h
    split at h
    · cases h
    · split at h
      · cases h
      · rename_i h1 h2
        have h1' : t.type = 0 := by simpa [Val.type] using h1
        have hs : t.elems.length = 4 := by
          have := h2
          simp only [Val.size, h1', if_true, not_not] at this
          rw [this]; rfl
        have : (if (!t.hasHeap) = true then Outcome.ub .nullDeref else neqLoop (neq n) t.elems (Xml.textWord.map .char)) = .ok false := by
          cases t <;> first | exact h | simp [Val.type] at h1'
        split at this
        · cases this
        · exact neqLoop_chars _ Xml.textWord hs this

theorem neqLoop_self {n : Nat} : ∀ (cs : List UInt8) (b : Bool), neqLoop (neq n) (cs.map .char) (cs.map .char) = .ok b → b = false
  | [], b, h => by simpa [neqLoop] using h
  | c :: cs, b, h => by
    simp only [List.map_cons, neqLoop] at h
    cases n with
    | zero => simp [neq] at h
    | succ n =>
      have : neq (n + 1) (.char c) (.char c) = .ok false := by simp [neq]
      rw [this] at h
      exact neqLoop_self cs b (by simpa using h)

theorem neq_of_text {n : Nat} {t : Val} {b : Bool} (ht : t.elems = [.char 116, .char 101, .char 120, .char 116])
    (h : neq n t (.chars Xml.textWord) = .ok b) : b = false := by
  cases n with
  | zero => simp [neq] at h
  | succ n =>
    have h1 : t.type = 0 := by cases t <;> first | rfl | (simp [Val.elems] at ht)
    have h2 : t.hasHeap = true := by cases t <;> first | rfl | (simp [Val.elems] at ht)
    unfold neq at h
    rw [if_neg (by rw [h1]; simp [Val.type]), if_neg (by rw [Val.size, h1, ht]; simp [Val.size, Val.type, Val.elems, Xml.textWord])] at h
    have h3 : (if (!t.hasHeap) = true then Outcome.ub .nullDeref else neqLoop (neq n) t.elems (Xml.textWord.map .char)) = .ok b := by
      cases t <;> first | exact h | simp [Val.type] at h1
    rw [h2, ht] at h3
    exact neqLoop_self Xml.textWord b h3

theorem dataItems_boxed (v : Val) : Xml.dataItems (boxed v) = Xml.dataItems v := by
  cases v <;> rfl

theorem withElems_self (v : Val) : withElems v v.elems = v := by
  cases v with
  | map ps =>
    simp only [withElems, Val.elems]
    congr 1
    induction ps with
    | nil => rfl
    | cons p ps ih => simp [ih]
  | _ => rfl

/-- an array or map of vars -/
def Holder (v : Val) : Prop := (∃ xs, v = .arr xs) ∨ ∃ ps, v = .map ps

theorem withElems_elems {v : Val} (hv : Holder v) {xs : List Val} (hl : xs.length = v.elems.length) :
    (withElems v xs).elems = xs := by
  rcases hv with ⟨ys, rfl⟩ | ⟨ps, rfl⟩
  · rfl
  · simp only [withElems, Val.elems, List.map_zipWith]
    simp only [Val.elems, List.length_map] at hl
    induction ps generalizing xs with
    | nil => simp at hl; simp [hl]
    | cons p ps ih =>
      cases xs with
      | nil => simp at hl
      | cons x xs => simp [ih (by simpa using hl)]

theorem withElems_holder {v : Val} (hv : Holder v) (xs : List Val) : Holder (withElems v xs) := by
  rcases hv with ⟨ys, rfl⟩ | ⟨ps, rfl⟩
  · exact Or.inl ⟨_, rfl⟩
  · exact Or.inr ⟨_, rfl⟩

theorem withElems_other {v : Val} (hv : ¬ Holder v) (xs : List Val) : withElems v xs = v := by
  cases v with
  | arr ys => exact absurd (Or.inl ⟨_, rfl⟩) hv
  | map ps => exact absurd (Or.inr ⟨_, rfl⟩) hv
  | _ => rfl

theorem withElems_twice {v : Val} (xs ys : List Val) (hl : xs.length = v.elems.length) : withElems (withElems v xs) ys = withElems v ys := by
  cases v with
  | map ps =>
    simp only [withElems]
    congr 1
    simp only [Val.elems, List.length_map] at hl
    induction ps generalizing xs ys with
    | nil => simp
    | cons p ps ih =>
      cases xs with
      | nil => simp at hl
      | cons x xs =>
        cases ys with
        | nil => simp
        | cons y ys => simp [ih xs ys (by simpa using hl)]
  | _ => rfl

theorem holder_type {v : Val} (hv : Holder v) : v.type = 0 := by
  rcases hv with ⟨ys, rfl⟩ | ⟨ps, rfl⟩ <;> rfl

theorem holder_items {v : Val} (hv : Holder v) : Xml.dataItems v = v.elems := by
  rcases hv with ⟨ys, rfl⟩ | ⟨ps, rfl⟩ <;> rfl

theorem holder_boxed {v : Val} (hv : Holder v) : boxed v = v := by
  rcases hv with ⟨ys, rfl⟩ | ⟨ps, rfl⟩ <;> rfl

theorem boxed_holder {v : Val} (hv : Holder (boxed v)) : Holder v := by
  cases v with
  | arr ys => exact Or.inl ⟨_, rfl⟩
  | map ps => exact Or.inr ⟨_, rfl⟩
  | _ => rcases hv with ⟨ys, h⟩ | ⟨ps, h⟩ <;> exact Val.noConfusion h

/-- what is in an array of numbers has no four elements -/
theorem holder_of {v x : Val} (hx : x ∈ v.elems) (h4 : x.elems.length = 4) : Holder v := by
  cases v with
  | arr ys => exact Or.inl ⟨_, rfl⟩
  | map ps => exact Or.inr ⟨_, rfl⟩
  | _ =>
    exfalso
    simp only [Val.elems, List.mem_map, List.not_mem_nil] at hx
    try (obtain ⟨c, -, rfl⟩ := hx; simp [Val.elems] at h4)

theorem element_holder {v d : Val} (h : Element v d) : Holder v := by
  obtain ⟨a, b, t, h1, h2⟩ := h
  exact holder_of (x := t) (by simp [h1]) (by simp [h2])

/-! ### the loop -/

theorem writeData_same (f : Val → Outcome (Option Bytes) × Val) (xs : List Val) (h : ∀ x ∈ xs, (f x).2 = x) :
    (writeData f xs).2 = xs := by
  induction xs with
  | nil => rfl
  | cons x xs ih =>
    have h0 := h x (by simp)
    have hi := ih fun y hy => h y (by simp [hy])
    simp only [writeData]
    split <;> simp_all

theorem writeData_ok (f : Val → Outcome (Option Bytes) × Val) : ∀ (xs : List Val) (w : Bytes), (writeData f xs).1 = .ok w →
    (writeData f xs).2 = xs.map (fun x => (f x).2) ∧ ∀ x ∈ xs, ∃ o, (f x).1 = .ok o
  | [], _, _ => ⟨rfl, by simp⟩
  | x :: xs, w, h => by
    simp only [writeData] at h ⊢
    cases hx : (f x).1 with
    | ok o =>
      rw [hx] at h
      simp only [Outcome.bind_ok] at h ⊢
      cases ho : itemText (f x).2 o with
      | ok w' =>
        rw [ho] at h
        simp only at h ⊢
        cases hr : (writeData f xs).1 with
        | ok r =>
          obtain ⟨h1, h2⟩ := writeData_ok f xs r hr
          refine ⟨by rw [h1]; rfl, ?_⟩
          intro y hy
          rcases List.mem_cons.1 hy with rfl | hy
          · exact ⟨o, hx⟩
          · exact h2 y hy
        | _ => rw [hr] at h; cases h
      | _ => rw [ho] at h; cases h
    | _ => rw [hx] at h; cases h

theorem data_twice {f : Val → Outcome (Option Bytes) × Val} (hf : ∀ x o, (f x).1 = .ok o → f (f x).2 = (.ok o, (f x).2)) :
    ∀ (xs : List Val) (w : Bytes), (writeData f xs).1 = .ok w →
      writeData f (xs.map fun x => (f x).2) = (.ok w, xs.map fun x => (f x).2)
  | [], _, h => by simpa [writeData] using h
  | x :: xs, w, h => by
    simp only [writeData, List.map_cons] at h ⊢
    cases hx : (f x).1 with
    | ok o =>
      rw [hf x o hx]
      rw [hx] at h
      simp only [Outcome.bind_ok] at h ⊢
      cases ho : itemText (f x).2 o with
      | ok w' =>
        rw [ho] at h
        simp only at h ⊢
        cases hr : (writeData f xs).1 with
        | ok r =>
          rw [hr] at h
          rw [data_twice hf xs r hr]
          exact Prod.ext h rfl
        | _ => rw [hr] at h; cases h
      | _ => rw [ho] at h; cases h
    | _ => rw [hx] at h; cases h

theorem writeData_fst (f : Val → Outcome (Option Bytes) × Val) (hf : ∀ x, (f x).1 = .ok none → (f x).2 = x) (xs : List Val) :
    (writeData f xs).1 = Xml.writeData (fun x => (f x).1) xs := by
  induction xs with
  | nil => rfl
  | cons x xs ih =>
    simp only [writeData, Xml.writeData]
    cases hx : (f x).1 with
    | ok o =>
      cases o with
      | some w => simp only [Outcome.bind_ok, itemText, ih]
      | none =>
        rw [hf x hx]
        simp only [Outcome.bind_ok, itemText]
        cases Xml.escapeVal x <;> simp [ih]
    | _ => rfl

/-! ### one element -/

theorem elems_of_size {v : Val} (h : v.size = 4) : ∃ a b c d, v.elems = [a, b, c, d] ∧ v.type = 0 := by
  unfold Val.size at h
  split at h
  · rename_i ht
    match v.elems, h with
    | [a, b, c, d], _ => exact ⟨a, b, c, d, rfl, ht⟩
  · cases h

/-- Either nothing is touched, or it is an element with data and the loop is entered. -/
theorem writeElem_cases (n : Nat) (v : Val) :
    ((writeElem (n + 1) v).2 = v ∧ (writeElem (n + 1) v).1 = Xml.writeElem (n + 1) v ∧
      ∀ d o, Element v d → d.defined = true → (writeElem (n + 1) v).1 ≠ .ok o) ∨
    ∃ name attr type data nm a, v.elems = [name, attr, type, data] ∧ v.size = 4 ∧ Element v data ∧ data.defined = true ∧
      neq n type (.chars Xml.textWord) = .ok false ∧ Xml.strOf name = .ok nm ∧ Xml.writeAttr attr = .ok a ∧
      writeElem (n + 1) v = ((writeData (writeElem n) (Xml.dataItems data)).1 >>= fun d =>
        .ok (some ([60] ++ nm ++ a ++ [62] ++ d ++ [60, 47] ++ nm ++ [62])),
        withElems v [name, attr, type, withElems (boxed data) (writeData (writeElem n) (Xml.dataItems data)).2]) := by
  by_cases h4 : v.size = 4
  · obtain ⟨name, attr, type, data, he, ht⟩ := elems_of_size h4
    have hE : ∀ d, Element v d → d = data ∧ type.elems = [.char 116, .char 101, .char 120, .char 116] := by
      rintro d ⟨a, b, c, g1, g2⟩
      rw [he] at g1
      obtain ⟨-, -, rfl, rfl⟩ : name = a ∧ attr = b ∧ type = c ∧ data = d := by simpa using g1
      exact ⟨rfl, g2⟩
    cases hq : neq n type (.chars Xml.textWord) with
    | ok b =>
      cases b with
      | true =>
        refine Or.inl ⟨?_, ?_, fun d o hd => absurd (neq_of_text (hE d hd).2 hq) (by decide)⟩ <;>
        simp [writeElem, Xml.writeElem, h4, he, hq]
      | false =>
        cases hn : Xml.strOf name with
        | ok nm =>
          cases ha : Xml.writeAttr attr with
          | ok a =>
            by_cases hd : data.defined = true
            · refine Or.inr ⟨name, attr, type, data, nm, a, he, h4, ⟨name, attr, type, he, text_of_neq hq⟩, hd, hq, hn, ha, ?_⟩
              simp [writeElem, h4, he, hq, hn, ha, hd, dataItems_boxed]
            · refine Or.inl ⟨?_, ?_, fun d o h1 h2 => absurd ((hE d h1).1 ▸ h2) hd⟩ <;>
              simp [writeElem, Xml.writeElem, h4, he, hq, hn, ha, hd]
          | _ => refine Or.inl ?_; simp [writeElem, Xml.writeElem, h4, he, hq, hn, ha]
        | _ => refine Or.inl ?_; simp [writeElem, Xml.writeElem, h4, he, hq, hn]
    | _ => refine Or.inl ?_; simp [writeElem, Xml.writeElem, h4, he, hq]
  · refine Or.inl ⟨?_, ?_, fun d o hd => ?_⟩
    · simp [writeElem, h4]
    · simp [writeElem, Xml.writeElem, h4]
    · refine absurd ?_ h4
      have ht := holder_type (element_holder hd)
      obtain ⟨a, b, c, g1, g2⟩ := hd
      rw [Val.size, ht, g1]; rfl

theorem writeElem_none {n : Nat} {v : Val} (h : (writeElem n v).1 = .ok none) : (writeElem n v).2 = v := by
  cases n with
  | zero => rfl
  | succ n =>
    rcases writeElem_cases n v with ⟨h1, -, -⟩ | ⟨_, _, _, data, nm, a, -, -, -, -, -, -, -, h1⟩
    · exact h1
    · rw [h1] at h
      exfalso
      simp only at h
      cases hw : (writeData (writeElem n) (Xml.dataItems data)).1 <;> rw [hw] at h <;> simp at h

theorem writeElem_fst (n : Nat) (v : Val) : (writeElem n v).1 = Xml.writeElem n v := by
  induction n generalizing v with
  | zero => rfl
  | succ n ih =>
    rcases writeElem_cases n v with ⟨-, h1, -⟩ | ⟨name, attr, type, data, nm, a, he, h4, -, hd, hq, hn, ha, h1⟩
    · exact h1
    · rw [h1]
      have : (fun x => (writeElem n x).1) = Xml.writeElem n := funext ih
      simp only [writeData_fst _ (fun x => writeElem_none), this]
      simp [Xml.writeElem, h4, he, hq, hn, ha, hd]

theorem boxed_number {d : Val} (h : ¬ Number d) : boxed d = d := by
  cases d <;> first | rfl | exact absurd trivial h

theorem kept {n : Nat} {v : Val} (h : ¬ HasNumber v) : (writeElem n v).2 = v := by
  induction n generalizing v with
  | zero => rfl
  | succ n ih =>
    rcases writeElem_cases n v with ⟨h1, -, -⟩ | ⟨name, attr, type, data, nm, a, he, h4, hE, hd, hq, hn, ha, h1⟩
    · exact h1
    · rw [h1]
      have hb : boxed data = data := boxed_number fun hh => h ⟨v, data, .self v, hE, hh⟩
      have hk : withElems data (writeData (writeElem n) (Xml.dataItems data)).2 = data := by
        by_cases hh : Holder data
        · rw [holder_items hh, writeData_same _ _ ?_, withElems_self]
          intro x hx
          refine ih fun ⟨w, e, hp, h2, h3⟩ => h ⟨w, e, .inside v data x w hE hx hp, h2, h3⟩
        · exact withElems_other hh _
      simp only [hb, hk]
      rw [← he, withElems_self]

theorem map_self {f : Val → Val} : ∀ (xs : List Val), xs.map f = xs → ∀ x ∈ xs, f x = x
  | [], _, x, hx => by simp at hx
  | y :: ys, h, x, hx => by
    simp only [List.map_cons, List.cons.injEq] at h
    rcases List.mem_cons.1 hx with rfl | hx
    · exact h.1
    · exact map_self ys h.2 x hx

theorem hasNumber_elem {v : Val} (h : HasNumber v) : ∃ d, Element v d ∧ (Number d ∨ ∃ x ∈ d.elems, HasNumber x) := by
  obtain ⟨w, d, hp, hE, hN⟩ := h
  cases hp with
  | self => exact ⟨d, hE, Or.inl hN⟩
  | inside _ d' x _ hE' hx hp => exact ⟨d', hE', Or.inr ⟨x, hx, w, d, hp, hE, hN⟩⟩

theorem changed {n : Nat} {v : Val} {o : Option Bytes} (hw : (writeElem n v).1 = .ok o) (h : HasNumber v) : (writeElem n v).2 ≠ v := by
  induction n generalizing v o with
  | zero => simp [writeElem] at hw
  | succ n ih =>
    obtain ⟨d, hE, hd⟩ := hasNumber_elem h
    have hH := element_holder hE
    have hE' := hE
    obtain ⟨name, attr, type, he, ht⟩ := hE
    have hdef : d.defined = true := by
      rcases hd with hd | ⟨x, hx, -⟩
      · cases d <;> first | rfl | exact hd.elim
      · cases d <;> first | rfl | (simp [Val.elems] at hx)
    rcases writeElem_cases n v with ⟨-, -, h1⟩ | ⟨name', attr', type', data, nm, a, he', h4, -, -, hq, hn, ha, h1⟩
    · exact absurd hw (h1 d o hE' hdef)
    · rw [he] at he'
      obtain ⟨rfl, rfl, rfl, rfl⟩ : name = name' ∧ attr = attr' ∧ type = type' ∧ d = data := by simpa using he'
      rw [h1] at hw ⊢
      simp only at hw ⊢
      intro hc
      have he2 := congrArg Val.elems hc
      rw [withElems_elems hH (by simp [he]), he] at he2
      have hc2 : withElems (boxed d) (writeData (writeElem n) (Xml.dataItems d)).2 = d := by simpa using he2
      rcases hd with hd | ⟨x, hx, hN⟩
      · cases d <;> first | exact hd.elim | exact Val.noConfusion hc2
      · obtain ⟨e, hE2, -⟩ := hasNumber_elem hN
        obtain ⟨_, _, _, g1, -⟩ := hE2
        have hD : Holder d := holder_of hx (by simp [g1])
        cases hr : (writeData (writeElem n) (Xml.dataItems d)).1 with
        | ok r =>
          obtain ⟨k1, k2⟩ := writeData_ok _ _ _ hr
          rw [holder_boxed hD, k1, holder_items hD] at hc2
          have he3 := congrArg Val.elems hc2
          rw [withElems_elems hD (by simp)] at he3
          obtain ⟨o', ho'⟩ := k2 x (by rw [holder_items hD]; exact hx)
          exact ih ho' hN (map_self _ he3 x hx)
        | _ => rw [hr] at hw; cases hw

theorem twice {n : Nat} {v : Val} {o : Option Bytes} (hw : (writeElem n v).1 = .ok o) :
    writeElem n (writeElem n v).2 = (.ok o, (writeElem n v).2) := by
  induction n generalizing v o with
  | zero => simp [writeElem] at hw
  | succ n ih =>
    rcases writeElem_cases n v with ⟨h1, -, -⟩ | ⟨name, attr, type, data, nm, a, he, h4, hE, hd, hq, hn, ha, h1⟩
    · rw [h1, ← hw]
      exact Prod.ext rfl h1
    · rw [h1] at hw ⊢
      simp only at hw ⊢
      have hH := element_holder hE
      cases hr : (writeData (writeElem n) (Xml.dataItems data)).1 with
      | ok r =>
        obtain ⟨k1, k2⟩ := writeData_ok _ _ _ hr
        rw [hr, Outcome.bind_ok] at hw
        generalize hD : withElems (boxed data) (writeData (writeElem n) (Xml.dataItems data)).2 = d'
        have e1 : (withElems v [name, attr, type, d']).elems = [name, attr, type, d'] := withElems_elems hH (by simp [he])
        have e2 : (withElems v [name, attr, type, d']).size = 4 := by
          rw [Val.size, holder_type (withElems_holder hH _), e1]; rfl
        have e3 : d'.defined = true ∧ boxed d' = d' ∧ ∃ ys, writeData (writeElem n) (Xml.dataItems d') = (.ok r, ys) ∧
            withElems d' ys = d' := by
          by_cases hh : Holder data
          · rw [holder_boxed hh, k1, holder_items hh] at hD
            have hl := withElems_elems hh (xs := data.elems.map fun x => (writeElem n x).2) (by simp)
            have hh' : Holder d' := hD ▸ withElems_holder hh _
            rw [hD] at hl
            have hT : writeData (writeElem n) d'.elems = (.ok r, d'.elems) := by
              rw [hl]
              rw [holder_items hh] at hr k2
              exact data_twice (fun x o ho => ih ho) _ _ hr
            rw [holder_items hh', hT]
            refine ⟨?_, holder_boxed hh', _, rfl, withElems_self _⟩
            rcases hh' with ⟨_, rfl⟩ | ⟨_, rfl⟩ <;> rfl
          · have hb : ¬ Holder (boxed data) := fun h => hh (boxed_holder h)
            rw [withElems_other hb] at hD
            subst hD
            refine ⟨?_, ?_, (writeData (writeElem n) (Xml.dataItems data)).2, ?_, withElems_other hb _⟩
            · cases data <;> first | rfl | exact hd
            · cases data <;> rfl
            · rw [dataItems_boxed]; exact Prod.ext hr rfl
        obtain ⟨e3, e4, ys, e5, e6⟩ := e3
        rw [← hw]
        simp only [writeElem, e2, e1, hq, Outcome.bind_ok, hn, ha, e3, e4]
        simp only [e5, e6, Outcome.bind_ok, ne_eq, not_true, if_false, Bool.not_true, Bool.false_eq_true]
        rw [withElems_twice _ _ (by simp [he])]
      | _ => rw [hr] at hw; cases hw

/-! ## Properties -/

/-- What goes to the file is what `Xml.write` says, of which C68 and C70 speak. -/
theorem same_file (n : Nat) (v : Val) : (write n v).1 = Xml.write n v := by
  unfold write Xml.write
  simp only [writeElem_fst]
  rfl

/-- C167 for documents in which no element has a single number for data: they are left as they were, even if writing ends with an
    exception.  Missing: elements with a number for data, `number_boxed`. -/
theorem kept_partial (n : Nat) (v : Val) (h : ¬ HasNumber v) : (write n v).2 = v := kept h

/-- No other documents are left as they were, once they are written. -/
theorem kept_iff (n : Nat) (v : Val) (w : Bytes) (hw : (write n v).1 = .ok w) : (write n v).2 = v ↔ ¬ HasNumber v := by
  refine ⟨fun h hN => ?_, kept_partial n v⟩
  cases ho : (writeElem n v).1 with
  | ok o => exact changed ho hN h
  | _ =>
    simp only [write, ho] at hw
    cases hw

/-- Whatever was written, writing again writes the same and changes nothing. -/
theorem write_again (n : Nat) (v : Val) (w : Bytes) (hw : (write n v).1 = .ok w) : write n (write n v).2 = (.ok w, (write n v).2) := by
  cases ho : (writeElem n v).1 with
  | ok o =>
    have := twice ho
    simp only [write, ho] at hw
    simp only [write, this]
    exact Prod.ext hw rfl
  | _ =>
    simp only [write, ho] at hw
    cases hw

theorem shows_part {t : Tree} {v w : Val} (hs : Shows t v) (hp : Part v w) : ∃ t', Shows t' w := by
  induction hp generalizing t with
  | self v => exact ⟨t, hs⟩
  | inside v d x w hE hx _ ih =>
    obtain ⟨a, b, c, g1, -⟩ := hE
    cases hs with
    | text s =>
      have hd : d ∈ (Val.chars s).elems := by rw [g1]; simp
      simp only [Val.elems, List.mem_map] at hd
      obtain ⟨_, -, rfl⟩ := hd
      simp [Val.elems] at hx
    | empty name atts a' _ =>
      simp only [Val.elems, List.cons.injEq] at g1
      obtain ⟨-, -, -, rfl, -⟩ := g1
      simp [Val.elems] at hx
    | elem name atts sub a' vs _ _ hl hall =>
      simp only [Val.elems, List.cons.injEq] at g1
      obtain ⟨-, -, -, rfl, -⟩ := g1
      obtain ⟨i, hi, rfl⟩ := List.getElem_of_mem hx
      exact ih (hall i (by rw [hl]; exact hi) hi)

/-- A document as it is read: writing it leaves it as it is. -/
theorem read_kept (n : Nat) (t : Tree) (v : Val) (hs : Shows t v) : (write n v).2 = v := by
  refine kept_partial n v ?_
  rintro ⟨w, d, hp, ⟨a, b, c, g1, g2⟩, hN⟩
  obtain ⟨t', h'⟩ := shows_part hs hp
  cases h' with
  | text s =>
    have hc : c ∈ (Val.chars s).elems := by rw [g1]; simp
    simp only [Val.elems, List.mem_map] at hc
    obtain ⟨_, -, rfl⟩ := hc
    simp [Val.elems] at g2
  | empty name atts a' _ =>
    simp only [Val.elems, List.cons.injEq] at g1
    obtain ⟨-, -, -, rfl, -⟩ := g1
    exact hN
  | elem name atts sub a' vs _ _ _ _ =>
    simp only [Val.elems, List.cons.injEq] at g1
    obtain ⟨-, -, -, rfl, -⟩ := g1
    exact hN

/-- `<b>` with the number 5 for data, in an element `<a>` -/
def five (d : Val) : Val :=
  .arr [.chars [97], .nil, .chars [116, 101, 120, 116], .arr [.chars [120], .arr [.chars [98], .nil, .chars [116, 101, 120, 116], d]]]

/-- C167 is false: the number that is the data of an element has become an array when the document has been written. -/
theorem number_boxed : (write 6 (five (.int 5))).1 = .ok (Xml.declaration ++
      [60, 97, 62, 120, 60, 98, 62, 0, 60, 47, 98, 62, 60, 47, 97, 62, 10]) ∧ (write 6 (five (.int 5))).2 = five (.ints [5]) ∧
    (write 6 (five (.int 5))).2 ≠ five (.int 5) := by
  refine ⟨by decide +kernel, rfl, ?_⟩
  rw [show (write 6 (five (.int 5))).2 = five (.ints [5]) from rfl]
  simp [five]

-- the hypotheses can be met
example : Shows Xml.sample2 Xml.sampleVal ∧ (write 5 Xml.sampleVal).2 = Xml.sampleVal :=
  ⟨Xml.sample2_shows, read_kept 5 _ _ Xml.sample2_shows⟩

example : ¬ HasNumber (five (.arr [.int 5])) ∧ (write 6 (five (.arr [.int 5]))).1 = (write 6 (five (.int 5))).1 :=
  ⟨(kept_iff 6 _ _ (by rw [same_file]; rfl)).1 rfl, rfl⟩

example : HasNumber (five (.int 5)) :=
  ⟨.arr [.chars [98], .nil, .chars [116, 101, 120, 116], .int 5], .int 5,
    .inside _ (.arr [.chars [120], .arr [.chars [98], .nil, .chars [116, 101, 120, 116], .int 5]]) _ _ ⟨_, _, _, rfl, rfl⟩
      (by simp [Val.elems]) (.self _), ⟨_, _, _, rfl, rfl⟩, trivial⟩

example (w : Bytes) (hw : (write 6 (five (.int 5))).1 = .ok w) : write 6 (five (.ints [5])) = (.ok w, five (.ints [5])) :=
  write_again 6 (five (.int 5)) w hw

/-- A number in place of an attribute map: the exception leaves the document as it was. -/
example : write 6 (.arr [.chars [97], .int 1, .chars [116, 101, 120, 116], .int 5]) =
    (.thrown (.error "var::key(): Not a map"), .arr [.chars [97], .int 1, .chars [116, 101, 120, 116], .int 5]) := rfl

#print axioms same_file
#print axioms kept_partial
#print axioms kept_iff
#print axioms write_again
#print axioms read_kept
#print axioms number_boxed

end Libube.XmlKeep

import Verif.Spec.Sndfile
import Verif.Lemmas.Transpose

/-! # C74: sound files -/

namespace Libube.Sndfile

open View Transpose

theorem floatsAt_eq {data : List α} : ∀ (n o : Nat), o + n ≤ data.length →
    floatsAt data o n = .ok ((data.drop o).take n)
  | 0, o, _ => by simp [floatsAt]
  | n + 1, o, h => by
    have hx : o < data.length := by omega
    have h1 : load data (o : Int) = .ok data[o] := by
      unfold load
      rw [if_neg (by omega)]
      simp [List.getElem?_eq_getElem hx]
    have h2 := floatsAt_eq (data := data) n (o + 1) (by omega)
    unfold floatsAt
    rw [h1]
    simp only [Outcome.bind_ok]
    rw [show ((o : Int) + 1) = ((o + 1 : Nat) : Int) by push_cast; rfl, h2]
    simp only [Outcome.bind_ok]
    rw [List.drop_eq_getElem_cons hx, List.take_succ_cons]

theorem floatsAt_beyond {data : List α} : ∀ (n o : Nat), o ≤ data.length → data.length < o + n →
    floatsAt data o n = .ub .outOfBounds
  | 0, o, h, h' => by omega
  | n + 1, o, h, h' => by
    unfold floatsAt
    by_cases hx : o < data.length
    · have h1 : load data (o : Int) = .ok data[o] := by
        unfold load
        rw [if_neg (by omega)]
        simp [List.getElem?_eq_getElem hx]
      have h2 := floatsAt_beyond (data := data) n (o + 1) (by omega) (by omega)
      rw [h1]
      simp only [Outcome.bind_ok]
      rw [show ((o : Int) + 1) = ((o + 1 : Nat) : Int) by push_cast; rfl, h2]
      rfl
    · have h1 : load data (o : Int) = .ub .outOfBounds := by
        unfold load
        rw [if_neg (by omega)]
        simp [List.getElem?_eq_none (by omega : data.length ≤ o)]
      rw [h1]
      rfl

theorem readOpen_eq {fuel : Nat} {zero : α} {junk : Nat → α} {f : File α} {size : Int} {got : Nat} {xs : List α}
    (hs : cint (f.frames * f.channels) = .ok size)
    (hr : readFrames f (buffer zero junk size.toNat).floats size.toNat = .ok (got, xs)) :
    readOpen fuel zero junk f = if (got : Int) ≠ size then .thrown (.error "sndfile::read: Size")
      else (channelRows fuel f ((buffer zero junk size.toNat).withFloats xs)).bind fun d => .ok (f.rate, d) := by
  unfold readOpen
  rw [hs, Outcome.bind_ok]
  dsimp only
  rw [hr, Outcome.bind_ok]
  rfl

/-- Reading a file of one channel returns its samples and its rate and closes the file.  Missing for the full
    claim of C74: several channels (`read_channels_throws`), no samples (`read_empty`). -/
theorem read_mono_partial (fuel : Nat) (zero : α) (junk : Nat → α) (f : File α) (hf : Sane f) (hc : f.channels = 1)
    (h1 : 1 ≤ f.frames) (h2 : (f.frames : Int) < 2 ^ 31) :
    ∃ d, read fuel zero junk (some f) = (.ok (f.rate, d), false) ∧ Is d f.samples := by
  have hl : f.samples.length = f.frames := by simpa [hc] using hf.2
  have hs : cint ((f.frames : Int) * f.channels) = .ok (f.frames : Int) := by
    rw [hc]; simpa using cint_ok (x := (f.frames : Int)) (by omega)
  have hb : (buffer zero junk f.frames).floats.length = f.frames := by
    unfold buffer
    split
    · simp [Sound.floats]; omega
    · simp [Sound.floats]; omega
  have hr : readFrames f (buffer zero junk f.frames).floats f.frames = .ok (f.frames, f.samples) := by
    unfold readFrames
    simp only [hc, Nat.mul_one, Nat.min_self]
    rw [List.take_of_length_le (by omega), if_neg (by omega), List.drop_of_length_le (by omega), List.append_nil]
  refine ⟨(buffer zero junk f.frames).withFloats f.samples, ?_, ?_⟩
  · have ho : readOpen fuel zero junk f = .ok (f.rate, (buffer zero junk f.frames).withFloats f.samples) := by
      rw [readOpen_eq hs hr, if_neg (by simp)]
      unfold channelRows
      rw [if_pos hc]
      rfl
    rw [read, ho]
    rfl
  · unfold buffer
    split
    · exact .inr rfl
    · match hx : f.samples, hl with
      | [], hl => simp at hl; omega
      | [x], hl => exact .inl ⟨x, rfl, rfl⟩
      | x :: y :: r, hl => simp at hl; omega

def mono : File Int := ⟨8000, 1, 3, [5, 6, 7]⟩

example : Sane mono ∧ mono.channels = 1 ∧ read 9 0 (fun _ => 9) (some mono) = (.ok (8000, .arr ⟨[5, 6, 7], none⟩), false) := by
  refine ⟨⟨by decide, by decide⟩, by decide, by decide⟩

/-- A file of several channels cannot be read at all, and it is left open. -/
theorem read_channels_throws (fuel : Nat) (zero : α) (junk : Nat → α) (f : File α) (hf : Sane f) (hc : 2 ≤ f.channels)
    (h1 : 1 ≤ f.frames) (h2 : (f.frames : Int) * f.channels < 2 ^ 31) :
    read fuel zero junk (some f) = (.thrown (.error "sndfile::read: Size"), true) := by
  have hlt : f.frames < f.frames * f.channels := by nlinarith
  have hs : cint ((f.frames : Int) * f.channels) = .ok ((f.frames * f.channels : Nat) : Int) := by
    push_cast; exact cint_ok ⟨by nlinarith, h2⟩
  have hb : (buffer zero junk (f.frames * f.channels)).floats.length = f.frames * f.channels := by
    unfold buffer
    rw [if_pos (by omega)]
    simp [Sound.floats]; omega
  have hr : readFrames f (buffer zero junk (f.frames * f.channels)).floats (f.frames * f.channels) = .ok (f.frames, f.samples) := by
    unfold readFrames
    simp only
    rw [Nat.min_eq_right (by omega), List.take_of_length_le (by rw [hf.2]), if_neg (by rw [hf.2, hb]; omega),
      List.drop_of_length_le (by rw [hf.2, hb]), List.append_nil]
  have ho : readOpen fuel zero junk f = .thrown (.error "sndfile::read: Size") := by
    rw [readOpen_eq hs hr, if_pos (by omega)]
  rw [read, ho]
  rfl

def stereo : File Int := ⟨8000, 2, 2, [5, 6, 7, 8]⟩

example : Sane stereo ∧ 2 ≤ stereo.channels ∧ 1 ≤ stereo.frames ∧ (stereo.frames : Int) * stereo.channels < 2 ^ 31 :=
  ⟨⟨by decide, by decide⟩, by decide, by decide, by decide⟩

/-- A file without samples gives the number 0. -/
theorem read_empty (fuel : Nat) (zero : α) (junk : Nat → α) (rate : Int) :
    read fuel zero junk (some ⟨rate, 1, 0, []⟩) = (.ok (rate, .num zero), false) ∧ ¬ Is (.num zero) ([] : List α) := by
  have hs : cint (((0 : Nat) : Int) * ((1 : Nat) : Int)) = .ok 0 := by decide
  have ho : readOpen fuel zero junk ⟨rate, 1, 0, []⟩ = .ok (rate, .num zero) := by
    unfold readOpen
    rw [hs, Outcome.bind_ok]
    rfl
  refine ⟨by rw [read, ho]; rfl, ?_⟩
  rintro (⟨x, -, h⟩ | h) <;> cases h

/-- Writing a plain array of floats passes on its elements. -/
theorem write_mono_partial (junk : Nat → α) (rate : Int) (xs : List α) :
    write .float junk rate ⟨xs, none⟩ = .ok ⟨rate, 1, xs.length, xs⟩ := by
  have h : floatsAt xs 0 xs.length = .ok xs := by
    have := floatsAt_eq (data := xs) xs.length 0 (by omega)
    simpa using this
  simp [write, channels, writeData, writeFrames, dim, size, offset, h]

example : write .float (fun _ => 9) 8000 ⟨[5, 6, 7], none⟩ = .ok ⟨8000, 1, 3, [5, 6, 7]⟩ := by decide

/-- Writing a view of one dimension passes on its elements, from where it starts. -/
theorem write_mono_view_partial (a : Arr α) (ha : (a.data.length : Int) < 2 ^ 31) (F : Nat) (off b : Int) (v : Arr α)
    (hv : view a [(F : Int)] off = .ok v) (hb : offset a = .ok b) (h0 : 0 ≤ b + off) (junk : Nat → α) (rate : Int) :
    ∃ f, write .float junk rate v = .ok f ∧ f.rate = rate ∧ f.channels = 1 ∧ f.frames = F ∧ f.samples.length = F ∧
      ∀ (i : Nat) x, f.samples[i]? = some x → getAll v [(i : Int)] = .ok x := by
  obtain ⟨b', hb', hda, hs, hl, ho⟩ := view_shape hv
  cases hb.symm.trans hb'
  obtain ⟨o, ho'⟩ : ∃ o : Nat, b + off = o := ⟨(b + off).toNat, by omega⟩
  rw [ho'] at hs hl
  rw [List.prod_singleton] at hl
  have hfl := floatsAt_eq (data := v.data) F o (by rw [hda]; omega)
  have hlen : ((v.data.drop o).take F).length = F := by rw [List.length_take, List.length_drop, hda]; omega
  have hsz : size v = .ok (F : Int) := by rw [hs.size, List.prod_singleton]
  refine ⟨⟨rate, 1, F, (v.data.drop o).take F⟩, ?_, rfl, rfl, rfl, hlen, fun i x hx => ?_⟩
  · have hdim : ¬ dim v > 1 := by rw [hs.dim]; simp
    unfold write channels
    rw [if_neg hdim, Outcome.bind_ok]
    have : writeData .float junk v 1 = .ok ((v.data.drop o).take F, (F : Int)) := by
      unfold writeData
      rw [if_neg hdim, hsz, Outcome.bind_ok, Int.toNat_natCast]
      unfold writeFrames
      rw [if_neg (by simp), hs.offset, Outcome.bind_ok, Nat.mul_one, hfl, Outcome.bind_ok]
    rw [show (1 : Int).toNat = 1 from rfl, this, Outcome.bind_ok, hsz]
    dsimp only
    rw [Outcome.bind_ok, if_neg (by simp), Int.toNat_natCast]
  · have hi : i < F := by
      have := (List.getElem?_eq_some_iff.mp hx).1
      rw [← hlen]; exact this
    have hg := hs.get_eq (by omega) (by rw [List.prod_singleton]; omega) (i : Int) [] [] ⟨by omega, by omega, trivial⟩
    have hx' : v.data[o + i]? = some x := by
      rw [← hx]
      show _ = ((v.data.drop o).take F)[i]?
      rw [List.getElem?_take, if_pos hi, List.getElem?_drop]
    show get v (i : Int) [] = .ok x
    rw [show ([] : List Int) = [] ++ [] from rfl, hg]
    unfold load
    rw [if_neg (by simp [ViewSpec.pos]; omega), show ((o : Int) + ViewSpec.pos [(F : Int)] [(i : Int)]).toNat = o + i by simp [ViewSpec.pos]; omega, hx']

example : view (⟨[9, 5, 6, 7, 9], none⟩ : Arr Int) [((3 : Nat) : Int)] 1 = .ok ⟨[9, 5, 6, 7, 9], some [1, 3, 1]⟩ ∧
    write .float (fun _ => 9) 8000 (⟨[9, 5, 6, 7, 9], some [1, 3, 1]⟩ : Arr Int) = .ok ⟨8000, 1, 3, [5, 6, 7]⟩ := by decide

/-- Arrays of any other type are taken for floats. -/
theorem write_other_type (k : Kind) (hk : k ≠ .float) (junk : Nat → α) (rate : Int) (xs : List α) :
    write k junk rate ⟨xs, none⟩ = .ub .typePun := by
  simp [write, channels, writeData, writeFrames, dim, size, hk]

example : Kind.double ≠ .float := by decide

/-- Writing a matrix of several rows, or any view whose first dimension is not 1, reads beyond the end of the array. -/
theorem write_channels_overreads (a : Arr α) (ha : (a.data.length : Int) < 2 ^ 31) (d : Int) (hd : 2 ≤ d) (lead : List Int)
    (hlead : ∀ d ∈ lead, 0 < d) (R C : Nat) (hR : 0 < R) (hC : 0 < C) (h1 : lead ++ [(R : Int), (C : Int)] = d :: sh)
    (off b : Int) (v : Arr α)
    (hv : view a (lead ++ [(R : Int), (C : Int)]) off = .ok v) (hb : offset a = .ok b) (h0 : 0 ≤ b + off)
    (junk : Nat → α) (rate : Int) :
    write .float junk rate v = .ub .outOfBounds := by
  obtain ⟨b', hb', hda, hs, hl, ho⟩ := view_shape hv
  cases hb.symm.trans hb'
  obtain ⟨o, ho'⟩ : ∃ o : Nat, b + off = o := ⟨(b + off).toNat, by omega⟩
  rw [ho'] at hs hl
  obtain ⟨n, hn, hn0⟩ := prod_nonneg_cast hlead
  have hprod : (lead ++ [(R : Int), (C : Int)]).prod = ((n * (R * C) : Nat) : Int) := by
    rw [List.prod_append, hn]; simp
  have hprod' : (lead ++ [(C : Int), (R : Int)]).prod = ((n * (R * C) : Nat) : Int) := by
    rw [List.prod_append, hn]; push_cast; simp [mul_comm]
  rw [hprod] at hl
  have hpos : 0 < n * (R * C) := Nat.mul_pos hn0 (Nat.mul_pos hR hC)
  obtain ⟨e, q1, q2, q3, q4⟩ := transposeNew_eq (t := .float) (junk := (List.range (n * (R * C))).map junk) hn hlead hR hC hs
    (by rw [hda]; omega) (by omega) (.inl rfl) (by simp)
  have hdim : dim v > 1 := by rw [hs.dim]; simp
  have hsh : shape v 0 = .ok d := hs.shape (pre := []) h1
  have hsz : size v = .ok ((n * (R * C) : Nat) : Int) := by rw [hs.size, hprod]
  have hsz' := q4.size
  rw [hprod'] at hsz'
  obtain ⟨m, rfl⟩ : ∃ m : Nat, d = m := ⟨d.toNat, by omega⟩
  have hm : 2 ≤ m := by omega
  have hfl : floatsAt e 0 (n * (R * C) * m) = .ub .outOfBounds :=
    floatsAt_beyond (data := e) _ 0 (by omega) (by rw [q2]; nlinarith)
  unfold write channels
  rw [if_pos hdim, hsh]
  simp only [Outcome.bind_ok]
  unfold writeData
  rw [if_pos hdim, hsz]
  simp only [Outcome.bind_ok, Int.toNat_natCast, q1, hsz']
  unfold writeFrames
  rw [if_neg (by simp), q4.offset]
  simp only [Outcome.bind_ok, hfl]
  rfl

/-- Two channels of three samples. -/
def rows : Arr Int := ⟨[1, 2, 3, 4, 5, 6], none⟩
def rowsView : Arr Int := ⟨rows.data, some [0, 2, 3, 3, 1]⟩

example : (rows.data.length : Int) < 2 ^ 31 ∧ view rows ([] ++ [((2 : Nat) : Int), ((3 : Nat) : Int)]) 0 = .ok rowsView ∧
    offset rows = .ok 0 ∧ write .float (fun _ => 0) 8000 rowsView = .ub .outOfBounds := by decide

/-- C74 for writing. -/
def WritesChannels : Prop := ∀ (v : Arr Int) (C F : Nat) (junk : Nat → Int) (rate : Int), 0 < C → 0 < F →
  shapeLoop v 0 (dim v) = .ok [(C : Int), (F : Int)] → C * F ≤ v.data.length → offset v = .ok 0 →
  ∃ f, write .float junk rate v = .ok f ∧ f.rate = rate ∧ f.channels = C ∧ f.frames = F ∧ Interleaved f v

theorem write_channels_fails : ¬ WritesChannels := by
  intro h
  obtain ⟨f, hf, -⟩ := h rowsView 2 3 (fun _ => 0) 8000 (by decide) (by decide) (by decide) (by decide) (by decide)
  have : write .float (fun _ => (0 : Int)) 8000 rowsView = .ub .outOfBounds := by decide
  rw [this] at hf
  cases hf

/-- A matrix of one row is written as it should be. -/
theorem write_row_partial (a : Arr α) (ha : (a.data.length : Int) < 2 ^ 31) (F : Nat) (hF : 0 < F) (off b : Int) (v : Arr α)
    (hv : view a [((1 : Nat) : Int), (F : Int)] off = .ok v) (hb : offset a = .ok b) (h0 : 0 ≤ b + off)
    (junk : Nat → α) (rate : Int) :
    ∃ f, write .float junk rate v = .ok f ∧ f.rate = rate ∧ f.channels = 1 ∧ f.frames = F ∧ Interleaved f v := by
  obtain ⟨b', hb', hda, hs, hl, ho⟩ := view_shape hv
  cases hb.symm.trans hb'
  obtain ⟨o, ho'⟩ : ∃ o : Nat, b + off = o := ⟨(b + off).toNat, by omega⟩
  rw [ho'] at hs hl
  have hprod : ([((1 : Nat) : Int), (F : Int)]).prod = (F : Int) := by simp
  rw [hprod] at hl
  obtain ⟨e, q1, q2, q3, q4⟩ := transposeNew_eq (t := .float) (junk := (List.range F).map junk) (lead := []) (n := 1)
    (R := 1) (C := F) (by simp) (by simp) (by omega) hF hs (by rw [hda]; omega) (by simp; omega) (.inl rfl) (by simp)
  simp only [Nat.one_mul] at q2 q3
  have hdim : dim v > 1 := by rw [hs.dim]; simp
  have hsh : shape v 0 = .ok ((1 : Nat) : Int) := hs.shape (pre := []) rfl
  have hsz : size v = .ok (F : Int) := by rw [hs.size, hprod]
  have hsz' : size (⟨e, some (0 :: flat ([] ++ [(F : Int), ((1 : Nat) : Int)]))⟩ : Arr α) = .ok (F : Int) := by
    rw [q4.size]; simp
  have hfl : floatsAt e 0 F = .ok e := by
    have := floatsAt_eq (data := e) F 0 (by omega)
    simpa [List.take_of_length_le (Nat.le_of_eq q2)] using this
  refine ⟨⟨rate, 1, F, e⟩, ?_, rfl, rfl, rfl, ?_, ?_⟩
  · unfold write channels
    rw [if_pos hdim, hsh, Outcome.bind_ok]
    have : writeData .float junk v 1 = .ok (e, (F : Int)) := by
      unfold writeData
      rw [if_pos hdim, hsz, Outcome.bind_ok, Int.toNat_natCast, q1, Outcome.bind_ok, hsz', Outcome.bind_ok]
      unfold writeFrames
      rw [if_neg (by simp), q4.offset, Outcome.bind_ok, Int.toNat_natCast, Nat.mul_one, hfl, Outcome.bind_ok]
    rw [Int.toNat_natCast, this, Outcome.bind_ok, hsz]
    dsimp only
    rw [Outcome.bind_ok, if_neg (by simp), Int.toNat_natCast]
  · simpa using q2
  · intro i c x hi hc hx
    have hi : i < F := hi
    have hc : c = 0 := by simpa using hc
    subst hc
    simp only [Nat.mul_one, Nat.add_zero] at hx
    have hg := getAll_block (lead := []) (R := 1) (C := F) hs (by simp; omega) [] trivial 0 i (by omega) hi
    have hz : o + 1 * F * (ViewSpec.pos [] []).toNat + (0 * F + i) = o + i := by simp [ViewSpec.pos]
    rw [hz] at hg
    simp only [List.nil_append] at hg
    rw [hg]
    have := q3 0 (by omega) i hi
    simp only [Nat.mul_zero, Nat.add_zero, Nat.zero_add] at this
    have hp : prev 1 F i = i := by
      simp [prev, Nat.mod_one]
    rw [hp, hda] at this
    rw [this] at hx
    unfold load
    rw [if_neg (by omega), hda]
    rw [Int.toNat_natCast, hx]

example : (rows.data.length : Int) < 2 ^ 31 ∧ view rows [((1 : Nat) : Int), ((4 : Nat) : Int)] 2 = .ok ⟨rows.data, some [2, 1, 4, 4, 1]⟩ ∧
    offset rows = .ok 0 ∧
    write .float (fun _ => 0) 8000 (⟨rows.data, some [2, 1, 4, 4, 1]⟩ : Arr Int) = .ok ⟨8000, 1, 4, [3, 4, 5, 6]⟩ := by decide

end Libube.Sndfile

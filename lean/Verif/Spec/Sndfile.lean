import Verif.Model.Sndfile

/-! # Specification of sound files (C74) -/

namespace Libube.Sndfile

open View

/-- A sound file: `channels` samples in each frame. -/
def Sane (f : File α) : Prop := 0 < f.channels ∧ f.samples.length = f.frames * f.channels

/-- The elements of a one-dimensional `var` are `xs`. -/
def Is (d : Sound α) (xs : List α) : Prop :=
  (∃ x, d = .num x ∧ xs = [x]) ∨ d = .arr ⟨xs, none⟩

/-- The file holds the elements of the rows of `v`, one row for each channel. -/
def Interleaved (f : File α) (v : Arr α) : Prop :=
  f.samples.length = f.frames * f.channels ∧
    ∀ i c x, i < f.frames → c < f.channels → f.samples[i * f.channels + c]? = some x → getAll v [(c : Int), (i : Int)] = .ok x

end Libube.Sndfile

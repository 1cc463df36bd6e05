import Verif.Model.Module

/-! # What is expected of modules, in terms of the log -/

namespace Libube.ModuleSpec

open Module

/-- Loader `i` has been made and not destroyed. -/
def Alive (tr : List Event) (i : Nat) : Prop := (∃ n, Event.opened i n ∈ tr) ∧ Event.closed i ∉ tr

/-- What may happen after `tr`: a loader is new; an instance is new and made by a loader that exists; it is used and deleted while its loader exists (so that its library is open) and
    not after it has been deleted; a loader closes its library once, when all of its instances have been deleted. -/
def Fine (tr : List Event) : Event → Prop
  | .opened i _ => ∀ m, Event.opened i m ∉ tr
  | .failed _ => True
  | .made i a => Alive tr i ∧ ∀ j, Event.made j a ∉ tr
  | .used a => ∃ i, Event.made i a ∈ tr ∧ Alive tr i ∧ Event.freed a ∉ tr
  | .freed a => ∃ i, Event.made i a ∈ tr ∧ Alive tr i ∧ Event.freed a ∉ tr
  | .closed i => Alive tr i ∧ ∀ a, Event.made i a ∈ tr → Event.freed a ∈ tr

/-- Every event was fine when it happened. -/
def Sound (tr : List Event) : Prop := ∀ pre e post, tr = pre ++ e :: post → Fine pre e

/-- What the language asks of a program after `tr`: loaders are used while they exist, references to instances while their loader exists; loaders are not copied. -/
def Proper (tr : List Event) : Op → Prop
  | .load _ => True
  | .create i _ _ => Alive tr i
  | .use a => ∃ i, Event.made i a ∈ tr ∧ Alive tr i
  | .copy _ => False
  | .close i => Alive tr i

/-- States of programs that do what is proper. -/
inductive Reach (libs : Nat → Lib) : State → Prop
  | start : Reach libs .start
  | ok {s t : State} {o : Op} : Reach libs s → Proper s.log o → step libs o s = .ok t → Reach libs t
  | thrown {s t : State} {o : Op} : Reach libs s → Proper s.log o → step libs o s = .thrown t → Reach libs t

end Libube.ModuleSpec

/-!
# Outcomes of modelled calls

Every modelled C++ function that can do something other than return a value
returns an `Outcome`.  Undefined behaviour, C++ exceptions, failed assertions and
non-termination are kept apart.  This file models no code of /repo itself; it is
the vocabulary of the other model files.
-/

namespace Libube

/-- Kinds of undefined behaviour that the modelled code can run into
    (C++17 rules; no code in /repo corresponds to this definition). -/
inductive UB where
  | nullDeref
  | outOfBounds
  | useAfterFree
  | uninit
  | overflow
  | divZero
  | badPointer
  | typePun
  deriving DecidableEq, Repr

/-- Exceptions thrown by libube: `libube::error` and the standard ones used in
    lube/var.cpp and lube/view.cpp (`std::range_error`) as well as
    `std::ios_base::failure` thrown by streams with `exceptions(failbit)`. -/
inductive Exn where
  | error (msg : String)
  | rangeError (msg : String)
  | ioFailure
  deriving DecidableEq, Repr

/-- Result of a modelled call: a value, an exception, undefined behaviour, a
    failed `assert`, or no return within the fuel given to the model function. -/
inductive Outcome (α : Type _) where
  | ok (a : α)
  | thrown (e : Exn)
  | ub (r : UB)
  | abort
  | diverge
  deriving DecidableEq, Repr

namespace Outcome

/-- Sequencing of calls: anything but a value ends the execution. -/
def bind {α β} (x : Outcome α) (f : α → Outcome β) : Outcome β :=
  match x with
  | ok a => f a
  | thrown e => thrown e
  | ub r => ub r
  | abort => abort
  | diverge => diverge

instance : Monad Outcome where
  pure := ok
  bind := bind

@[simp] theorem bind_ok {α β} (a : α) (f : α → Outcome β) : (ok a >>= f) = f a := rfl
@[simp] theorem bind_thrown {α β} (e) (f : α → Outcome β) : (thrown e >>= f) = thrown e := rfl
@[simp] theorem bind_ub {α β} (r) (f : α → Outcome β) : (ub r >>= f) = ub r := rfl
@[simp] theorem bind_abort {α β} (f : α → Outcome β) : (abort >>= f) = abort := rfl
@[simp] theorem bind_diverge {α β} (f : α → Outcome β) : (diverge >>= f) = diverge := rfl
@[simp] theorem pure_eq {α} (a : α) : (pure a : Outcome α) = ok a := rfl

instance : LawfulMonad Outcome := LawfulMonad.mk'
  (id_map := by intro α x; cases x <;> rfl)
  (pure_bind := by intros; rfl)
  (bind_assoc := by intro α β γ x f g; cases x <;> rfl)

end Outcome
end Libube

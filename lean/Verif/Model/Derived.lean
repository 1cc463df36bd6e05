import Verif.Model.Value

/-! # The comparisons made of `<` (lube/var.h) -/

namespace Libube.Val

/-- `var::operator >` (lube/var.h:102). -/
def gt (n : Nat) (a b : Val) : Outcome Bool := lt n b a

/-- `var::operator <=` (lube/var.h:103). -/
def le (n : Nat) (a b : Val) : Outcome Bool := do
  .ok (!(← gt n a b))

/-- `var::operator >=` (lube/var.h:104). -/
def ge (n : Nat) (a b : Val) : Outcome Bool := do
  .ok (!(← lt n a b))

end Libube.Val

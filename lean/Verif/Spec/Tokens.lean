import Verif.Model.World

/-!
# Specification: what an account holds
-/

namespace Pizauth

/-- Account `n` has the token `t` (the daemon's own record of it). -/
def HoldsToken (ls : LockedState) (n : String) (t : ActiveTok) : Prop :=
  ∃ e ∈ ls.details, e.name = n ∧ e.ts = .active t

/-- Account `n` has an outstanding authorisation request `p`. -/
def HoldsPending (ls : LockedState) (n : String) (p : PendingTok) : Prop :=
  ∃ e ∈ ls.details, e.name = n ∧ e.ts = .pending p

/-- Account `n` has neither. -/
def HoldsNothing (ls : LockedState) (n : String) : Prop :=
  ∃ e ∈ ls.details, e.name = n ∧ e.ts = .empty

end Pizauth

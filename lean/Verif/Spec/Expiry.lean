import Verif.Model.World

/-!
# Specification: when a token expires
-/

namespace Pizauth

/-- What the expiry of a new token must be: `expires_in` after it was obtained or, if the clock cannot represent
that, `refresh_at_least` after it was obtained. -/
def ExpiryRule (c : Config) (a : Account) (obtained : Instant) (expiresIn : Nat) (expiry : Instant) : Prop :=
  if obtained + expiresIn * 1000000000 ≤ timeMax then expiry = obtained + expiresIn * 1000000000
  else expiry = obtained + (a.effRefreshAtLeast c : Int)

end Pizauth

import Verif.Model.Config

/-!
# Specification: security-relevant part of an account's configuration
-/

namespace Pizauth

/-- Two account configurations are the same but for refresh timing. Everything else (name, auth_uri,
auth_uri_fields, client_id, client_secret, redirect_uri, scopes, token_uri) is security relevant. -/
def SameSec (a b : Account) : Prop :=
  { a with refreshAtLeast := none, refreshBeforeExpiry := none, refreshRetry := none } =
  { b with refreshAtLeast := none, refreshBeforeExpiry := none, refreshRetry := none }

instance (a b : Account) : Decidable (SameSec a b) := by unfold SameSec; infer_instance

end Pizauth

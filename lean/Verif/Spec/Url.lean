import Verif.Model.Env

/-!
# Specification: facts about URLs

The URL parser is a parameter of the model. Theorems which need something about it take one of the following as an
explicit hypothesis.
-/

namespace Pizauth

/-- A law of the URL standard: a parsed `http` or `https` URL has a non-empty host. -/
def HostLaw (E : Env) : Prop :=
  ∀ s u, E.parseUrl s = some u → u.scheme = "http" ∨ u.scheme = "https" → ∃ h, u.host = some h ∧ h ≠ ""

/-- The port which `Url::port` shows for a URL with this scheme served at port `p`: none if it is the default. -/
def shownPort (scheme : String) (p : Nat) : Option Nat :=
  if (scheme = "http" ∧ p = 80) ∨ (scheme = "https" ∧ p = 443) then none else some p

/-- The port at which redirects to a URI with this scheme are served, given the ports of the two servers. -/
def servedAt (scheme : String) (http https : Option Nat) : Option Nat :=
  if scheme = "https" ∧ https.isSome then https else http

/-- The characters of URL-safe base64. -/
def UrlSafe (c : Char) : Prop :=
  ('A' ≤ c ∧ c ≤ 'Z') ∨ ('a' ≤ c ∧ c ≤ 'z') ∨ ('0' ≤ c ∧ c ≤ '9') ∨ c = '-' ∨ c = '_'

instance (c : Char) : Decidable (UrlSafe c) := by unfold UrlSafe; infer_instance

end Pizauth

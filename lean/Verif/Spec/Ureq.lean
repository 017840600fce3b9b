import Verif.Model.Ureq

/-!
# Specification: redirections by token servers
-/

namespace Pizauth.Ureq

/-- A response which sends a client which asked with GET (or with POST, if `post`) elsewhere. -/
def Response.redirects (r : Response) (post : Bool) : Prop :=
  r.status = 301 ∨ r.status = 302 ∨ r.status = 303 ∨ (post = false ∧ (r.status = 307 ∨ r.status = 308))

/-- What a response says about tokens: errors are those of the server from 400 on, and everything else is read. -/
def Response.Means (r : Response) (n : Net) : Prop :=
  (400 ≤ r.status ∧ n = .status r.status r.body) ∨
  (r.status < 400 ∧ ∃ s, r.body = some s ∧ ∃ msg, n = Net.ofText s msg) ∨
  (r.status < 400 ∧ r.body = none ∧ ∃ msg, n = .readErr msg)

end Pizauth.Ureq

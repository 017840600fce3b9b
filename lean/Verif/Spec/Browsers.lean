import Verif.Model.Browsers
import Verif.Spec.Lineage

/-!
# Specification: what browsers did, and which of their requests were handled
-/

namespace Pizauth

/-- All requests of browsers which were handled, oldest first, with the server to which they came. -/
def httpRequests (L : Log) : List (Bytes × Bool) :=
  (L.filterMap fun | (_, .httpReq _ b sec) => some (b, sec) | _ => none).reverse

/-- The browsers, in the order in which they connected: did they connect to the HTTPS server? -/
def browsers (l : List WebAct) : List Bool := l.filterMap fun | .connect sec => some sec | _ => none

/-- Everything browser `i` sent. -/
def webSent (i : Nat) (l : List WebAct) : Bytes :=
  (l.map fun | .send j b => if j = i then b else [] | _ => []).flatten

/-- States of the server and the browsers which can be reached. -/
def VisitReach (E : Env) (f : Visits) : Prop := ∃ (f₀ : Visits) (l : List WebAct), f₀.IsInit E ∧ f₀.run E l = some f

end Pizauth

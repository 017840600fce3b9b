import Verif.Model.Accept
import Verif.Spec.Lineage

/-!
# Specification: the requests which the server gets
-/

namespace Pizauth

/-- All requests, oldest first. -/
def requests (L : Log) : List Bytes :=
  (L.filterMap fun | (_, .request b) => some b | _ => none).reverse

/-- How many clients have connected. They are numbered 0, 1, … in this order. -/
def clients (l : List FrontAct) : Nat :=
  (l.filter fun | .connect => true | _ => false).length

/-- Everything client `i` sent. -/
def sentBy (i : Nat) (l : List FrontAct) : Bytes :=
  (l.map fun | .send j b => if j = i then b else [] | _ => []).flatten

/-- How often the server read from a connection. -/
def reads (l : List FrontAct) : Nat :=
  (l.filter fun | .read _ => true | _ => false).length

/-- States of the server and its clients which can be reached. -/
def FrontReach (E : Env) (f : Front) : Prop := ∃ (f₀ : Front) (l : List FrontAct), f₀.IsInit E ∧ f₀.run E l = some f

end Pizauth

import Verif.Spec.Log

/-!
# Specification: what a client receives
-/

namespace Pizauth

/-- What was written to the client which made the last request, in order. -/
def repliesSince : Log → List Bytes
  | [] => []
  | (_, .request _) :: _ => []
  | (_, .reply b) :: L => repliesSince L ++ [b]
  | _ :: L => repliesSince L

/-- A step from `w` closes the connection to the client whose request is `buf`; the client has received `b`. -/
structure Receives (E : Env) (w : World) (buf b : Bytes) : Prop where
  reach : Reach E w
  step : ∃ act w' t, w.step E act = some w' ∧ w'.log = (t, .closed) :: w.log
  request : ∃ t, lastRequest w.log = some (t, buf)
  all : b = (repliesSince w.log).flatten

end Pizauth

import Verif.Model.World
import Verif.Spec.Lineage

/-!
# Specification: reading the log
-/

namespace Pizauth

/-- The last request on the Unix socket, and when it arrived. -/
def lastRequest : Log → Option (Instant × Bytes)
  | [] => none
  | (t, .request buf) :: _ => some (t, buf)
  | _ :: L => lastRequest L

/-- The part of the log since the last request on the Unix socket. -/
def sinceRequest : Log → Log
  | [] => []
  | (_, .request _) :: _ => []
  | o :: L => o :: sinceRequest L

/-- A step from `w` writes `b` to the client whose request is `buf`. -/
structure Answers (E : Env) (w : World) (buf b : Bytes) : Prop where
  reach : Reach E w
  step : ∃ act w' t, w.step E act = some w' ∧ w'.log = (t, .reply b) :: w.log
  request : ∃ t, lastRequest w.log = some (t, buf)

end Pizauth

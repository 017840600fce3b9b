import Verif.Spec.Leak
import Verif.Spec.Log

/-!
# Specification: what adjusting the system's date changes
-/

namespace Pizauth

/-- The same things happen, except that the system's date is adjusted at other times or to other dates. (As the process
may end with the last action, the lists do not end with further adjustments.) -/
inductive SameButDate : List Action → List Action → Prop where
  | nil : SameButDate [] []
  | here (t : SysTime) {l l' : List Action} : SameButDate l l' → SameButDate (.setWall t :: l) l'
  | there (t : SysTime) {l l' : List Action} : l ≠ [] → SameButDate l l' → SameButDate l (.setWall t :: l')
  | both (a : Action) {l l' : List Action} : SameButDate l l' → SameButDate (a :: l) (a :: l')

/-- The same history (newest first), except perhaps for answers to `status`. -/
inductive SameButStatus : Log → Log → Prop where
  | nil : SameButStatus [] []
  | both (o : Instant × Obs) {l l' : Log} : SameButStatus l l' → SameButStatus (o :: l) (o :: l')
  | status (t : Instant) (b b' : Bytes) {l l' : Log} {t0 : Instant} {buf : Bytes} : SameButStatus l l' →
      lastRequest l = some (t0, buf) → parseReq buf = .status → SameButStatus ((t, .reply b) :: l) ((t, .reply b') :: l')

/-- A client asks for the status. -/
def AsksStatus (a : Action) : Prop := ∃ buf, a = .connect buf ∧ parseReq buf = .status

/-- The same token, except perhaps for when it was obtained and when it expires. -/
def SameButTimes (t t' : ActiveTok) : Prop := ∃ o x, t' = { t with obtained := o, expiry := x }

end Pizauth

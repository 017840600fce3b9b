import Verif.Spec.Schedule
import Verif.Spec.Log
import Verif.Spec.Trace
import Verif.Spec.Security

/-!
# Specification: reminders
-/

namespace Pizauth

/-- There is a history leading from `w0` to `w` during which account `n` has an outstanding authorisation all the time,
and no request `pizauth refresh n` replaces it by another one. -/
def SameRequest (E : Env) (n : String) : World → World → Prop :=
  During E (fun w => ∃ p, HoldsPending w.ls n p) fun w a w' =>
    ∀ t buf u inp, lastRequest w.log = some (t, buf) → parseReq buf = .refresh u n → a = .run 0 inp → w'.ls = w.ls

/-- A step from `w` to `w'` runs `auth_notify_cmd` for account `n`. -/
def Reminds (E : Env) (n : String) (w w' : World) : Prop :=
  ∃ a cmd url l, w.step E a = some w' ∧ w'.log = l ++ w.log ∧ (w.now, .authCmd cmd n url) ∈ l

end Pizauth

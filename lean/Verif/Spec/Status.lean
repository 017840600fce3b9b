import Verif.Spec.Dump

/-!
# Specification: what `status` shows
-/

namespace Pizauth

/-- How the moment `i` is shown: as a date, or as unknown if the wall clock cannot represent it. -/
def ShowsTime (E : Env) (now : Instant) (wall : SysTime) (i : Instant) (s : String) : Prop :=
  if timeMin ≤ wall + (i - now) ∧ wall + (i - now) ≤ timeMax then E.rfc2822 (wall + (i - now)) = some s
  else s = "<unknown time>"

/-- The part of a token state which `status` may show. -/
inductive Shown where
  | noToken
  | pending (lastNotification : Option Instant)
  | valid (obtained expiry : Instant)
  | expired (lastAttempt : Option Instant)

/-- What may be shown of a token state. -/
def TokenState.shown (now : Instant) : TokenState → Shown
  | .empty => .noToken
  | .pending p => .pending p.lastNotification
  | .active t => if now < t.expiry then .valid t.obtained t.expiry else .expired t.lastAttempt

/-- The text for what is shown. -/
inductive Shown.Text (E : Env) (now : Instant) (wall : SysTime) : Shown → String → Prop
  | noToken : Text E now wall .noToken "No access token"
  | never : Text E now wall (.pending none) "Access token pending authentication"
  | notified {i : Instant} {s : String} : ShowsTime E now wall i s →
      Text E now wall (.pending (some i)) ("Access token pending authentication (last notification " ++ s ++ ")")
  | valid {o x : Instant} {s1 s2 : String} : ShowsTime E now wall o s1 → ShowsTime E now wall x s2 →
      Text E now wall (.valid o x) ("Active access token (obtained " ++ s1 ++ "; expires " ++ s2 ++ ")")
  | expired : Text E now wall (.expired none) "Access token expired (refresh not yet attempted)"
  | attempted {i : Instant} {s : String} : ShowsTime E now wall i s →
      Text E now wall (.expired (some i)) ("Access token expired (last refresh attempt " ++ s ++ ")")

/-- The instants about which `status` reports for a token state at time `now`. -/
def reportedTimes (now : Instant) : TokenState → List Instant
  | .empty => []
  | .pending p => p.lastNotification.toList
  | .active a => if now < a.expiry then [a.obtained, a.expiry] else a.lastAttempt.toList

/-- Is this step answering `status`? -/
def AnswersStatus (w : World) (act : Action) : Prop :=
  ∃ inp buf rest, act = .run 0 inp ∧ w.threads 0 = .unix buf :: rest ∧ parseReq buf = .status

/-- The two states do not differ in what may be shown at time `now`. -/
def SameShown (now : Instant) (ls1 ls2 : LockedState) : Prop :=
  ∀ n s, (∃ ts, Holds ls1 n ts ∧ ts.shown now = s) ↔ (∃ ts, Holds ls2 n ts ∧ ts.shown now = s)

end Pizauth

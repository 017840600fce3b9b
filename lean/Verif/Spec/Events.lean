import Verif.Spec.Trace
import Verif.Spec.Refresh
import Verif.Spec.Tokens
import Verif.Spec.Log

/-!
# Specification: token events
-/

namespace Pizauth

/-- The events which were queued, in order. -/
def queuedEvents : Log → List (String × TokenEvent)
  | [] => []
  | (_, .event _ n e) :: L => queuedEvents L ++ [(n, e)]
  | _ :: L => queuedEvents L

/-- The events for which `token_event_cmd` was run, in order. -/
def executedEvents : Log → List (String × TokenEvent)
  | [] => []
  | (_, .eventCmd _ n e) :: L => executedEvents L ++ [(n, e)]
  | _ :: L => executedEvents L

/-- Is `token_event_cmd` running? -/
def eventCmdRunning : Log → Bool
  | [] => false
  | (_, .eventCmd _ _ _) :: _ => true
  | (_, .eventCmdEnd) :: _ => false
  | _ :: L => eventCmdRunning L

/-- The event which the event thread has taken from the queue but not yet dealt with. -/
def eventInHand : EvPc → List (String × TokenEvent)
  | .readCmd n e => [(n, e)]
  | _ => []

/-- The events which are not dealt with yet, in order. -/
def openEvents (w : World) : List (String × TokenEvent) := eventInHand w.evPc ++ w.evQueue

/-- A wake-up of the event thread was posted, or a thread is about to post one. -/
def EventerWoken (w : World) : Prop := w.evPred = true ∨ ∃ i, .wakeEventer ∈ w.threads i

/-- No event waits without the event thread being at work or about to be woken. -/
def NotStranded (w : World) : Prop := w.evQueue ≠ [] → w.evPc ≠ .wait ∨ EventerWoken w

/-- There is a history leading from `w0` to `w` during which there is always a `token_event_cmd`. -/
def EventCmdSet (E : Env) : World → World → Prop :=
  During E (fun w => w.ls.config.tokenEventCmd.isSome = true) (fun _ _ _ => True)

/-- Account `n` had a token and has none any more, nor an authorisation. -/
def TokenRemoved (n : String) (w1 w2 : World) : Prop := (∃ t, HoldsToken w1.ls n t) ∧ HoldsNothing w2.ls n

/-- What thread `i` did so that event `e` concerning account `n` was queued. -/
def EventCause (E : Env) (w : World) (i : Nat) (n : String) : TokenEvent → Prop
  | .new => DidStep E i w fun w1 w2 =>
      (∃ p, HoldsPending w1.ls n p) ∧ ∃ t, HoldsToken w2.ls n t ∧ t.obtained = w1.now
  | .refresh => DidStep E i w fun w1 w2 =>
      RefreshingAccount w1 i n ∧ (∃ t, HoldsToken w1.ls n t) ∧
        ∃ t, HoldsToken w2.ls n t ∧ t.ongoing = false ∧ t.fails = 0 ∧ t.lastAttempt = none
  | .revoked => i = 0 ∧ DidStep E 0 w fun w1 w2 =>
      (∃ t buf, lastRequest w1.log = some (t, buf) ∧ parseReq buf = .revoke n) ∧ HoldsNothing w2.ls n
  | .invalidated => DidStep E i w fun w1 w2 =>
      (RefreshingAccount w1 i n ∧ TokenRemoved n w1 w2) ∨
      (HandleLost w1 i ∧ w2.ls = w1.ls ∧ (∃ cmd, .transientCmd i cmd n ∈ threadLog i w1.log) ∧
        .transientCmdEnd i false ∈ threadLog i w1.log)

end Pizauth

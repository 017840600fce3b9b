import Verif.Spec.Events
import Verif.Spec.Lineage

/-!
# What it means that `token_event_cmd` can keep a dump up to date (README.md 292-330)
-/

namespace Pizauth

/-- An event concerning account `n` is waiting: a thread is about to queue it, it is queued, or the event thread is about
to deal with it. -/
def EventDue (w : World) (n : String) (e : TokenEvent) : Prop :=
  (∃ i, .pushEvent n e ∈ w.threads i) ∨ (n, e) ∈ openEvents w

/-- The step from `w1` to `w2` starts `token_event_cmd` for event `e` concerning account `n`. -/
def CommandStarts (E : Env) (n : String) (e : TokenEvent) (w1 w2 : World) : Prop :=
  ∃ cmd, w1.ls.config.tokenEventCmd = some cmd ∧ w1.step E .eventer = some w2 ∧
    w2.log = (w1.now, .eventCmd cmd n e) :: w1.log ∧ w2.ls = w1.ls

/-- Account `n` holds a token with contents `i`. -/
def HoldsInfo (w : World) (n : String) (i : TokInfo) : Prop := ∃ t, HoldsToken w.ls n t ∧ t.info = i

/-- In the step from `w1` to `w2` a dump is restored. -/
def Restores (E : Env) (w1 w2 : World) : Prop :=
  ∃ i inp plain, w1.step E (.run i inp) = some w2 ∧ w2.log = (w1.now, .restored plain) :: w1.log

end Pizauth

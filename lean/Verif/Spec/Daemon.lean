import Verif.Model.Daemon
import Verif.Spec.Accept
import Verif.Spec.Browsers
import Verif.Spec.Jobs

/-!
# Specification: what clients and browsers did
-/

namespace Pizauth

/-- What clients (and the main thread, for them) did. -/
def clientActs (l : List DaemonAct) : List FrontAct := l.filterMap fun | .client a => some a | _ => none

/-- What browsers (and their threads) did. -/
def browserActs (l : List DaemonAct) : List WebAct := l.filterMap fun | .browser a => some a | _ => none

/-- The states of the daemon, its clients, browsers and commands which can be reached. -/
def DaemonReach (E : Env) (shell : Commands.Shell) (d : Daemon) : Prop :=
  ∃ (d₀ : Daemon) (l : List DaemonAct), d₀.IsInit E ∧ d₀.run E shell l = some d

end Pizauth

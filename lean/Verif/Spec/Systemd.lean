import Verif.Model.Systemd
import Verif.Spec.Boot
import Verif.Spec.Startup
import Verif.Spec.Tokens

/-!
# Specification: the systemd service
-/

namespace Pizauth.Systemd

/-- The configuration is valid, and the ports belong to the servers which it asks for. -/
structure Fine (E : Env) (c : Config) (S : Static) : Prop where
  conf : c.Ok E
  http : S.httpPort.isSome = c.httpListen.isSome
  https : S.httpsPort.isSome = c.httpsListen.isSome

/-- The states of the service after the computer was started. -/
inductive Reaches (E : Env) (c : Config) (S : Static) : Service → Prop where
  | boot {s : Service} : s.host = Start.Host.boot → s.job = .none → Reaches E c S s
  | step {s s' : Service} (a : Act) : Reaches E c S s → s.step E c S a = some s' → Reaches E c S s'

/-- From `s` to `s'`, without stopping the service. -/
inductive Unstopped (E : Env) (c : Config) (S : Static) (s : Service) : Service → Prop where
  | refl : Unstopped E c S s s
  | step {s1 s2 : Service} (a : Act) : Unstopped E c S s s1 → s1.step E c S a = some s2 → a ≠ .stop → Unstopped E c S s s2

end Pizauth.Systemd

import Verif.Model.Jobs

/-!
# Which commands are to be run
-/

namespace Pizauth

/-- The command which an observation asks for. -/
def Obs.job : Obs → Option Job
  | .authCmd cmd act url => some (.auth cmd act url)
  | .errorCmd _ cmd act msg => some (.error cmd act msg)
  | _ => none

/-- All commands which have been asked for, oldest first. -/
def jobsOf (log : List (Instant × Obs)) : List Job := log.reverse.filterMap fun p => p.2.job

/-- The commands which the daemon has not started yet, and those which it has. -/
def Jobs.all (s : Jobs) : List Job := s.todo ++ s.threads ++ s.started.map Prod.snd

end Pizauth

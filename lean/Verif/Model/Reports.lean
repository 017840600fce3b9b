import Verif.Model.Jobs
import Verif.Model.Messages

/-!
# What is logged about `auth_notify_cmd` and `error_notify_cmd`

`Model/Jobs.lean` has the threads which run these commands. Here it is added what becomes of the commands, and what the
threads log about it.
-/

namespace Pizauth

/-- What `Command::output` results in, src/server/notifier.rs:94-106,150-162. -/
inductive CmdOutcome where
  /-- the command could not be started, or waiting for it failed -/
  | failed (err : String)
  /-- it has ended, with an exit code or by a signal, and has printed this -/
  | exited (code : Option Int) (stdout stderr : Bytes)
deriving DecidableEq

namespace Job

/-- `act_name`, src/server/notifier.rs:87,139. -/
def act : Job → String
  | .auth _ a _ => a
  | .error _ a _ => a

/-- `cmd`, src/server/notifier.rs:87,143. -/
def cmd : Job → String
  | .auth c _ _ => c
  | .error c _ _ => c

/-- What is logged instead of something which is not UTF-8, src/server/notifier.rs:101,157. -/
def unprintable : Job → String
  | .auth _ _ _ => "<stderr not representable as UTF-8"
  | .error _ _ _ => "<stderr not representable as UTF-8>"

/-- What the thread logs, src/server/notifier.rs:96-108,152-164. -/
def report (shell : Commands.Shell) (j : Job) : CmdOutcome → Option Msg
  | .failed e =>
    match shell with
    | none => some ⟨.error, e⟩
    | some _ => some ⟨.error, j.act ++ ": error when running '" ++ j.cmd ++ "': " ++ e⟩
  | .exited code out _ =>
    if code = some 0 then none
    else some ⟨.error, j.act ++ ": error when running '" ++ j.cmd ++ "': " ++ (fromUtf8 out).getD j.unprintable⟩

end Job

/-- The daemon, the threads which run commands, and what they log, src/server/notifier.rs:34-167. -/
structure Reports where
  jobs : Jobs
  /-- the threads which wait for their command, in the order of `jobs.running`, src/server/notifier.rs:94,150 -/
  live : List Job := []
  /-- the threads which are done, and what became of their command (history) -/
  ended : List (Job × CmdOutcome) := []
  /-- what they have logged, oldest first -/
  said : List Msg := []

namespace Reports

/-- What can happen, src/server/notifier.rs:34-167. -/
inductive Act where
  /-- anything which happens in `Model/Jobs.lean`, except that a command ends -/
  | job (a : Jobs.Act)
  /-- a command ends -/
  | finish (i : Nat) (o : CmdOutcome)

/-- A thread is done, src/server/notifier.rs:96-108,152-164. -/
def close (shell : Commands.Shell) (r : Reports) (j : Job) (o : CmdOutcome) : Reports :=
  { r with ended := r.ended ++ [(j, o)], said := r.said ++ (j.report shell o).toList }

/-- One step; `none` if it is not possible, src/server/notifier.rs:34-167. -/
def step (E : Env) (shell : Commands.Shell) (r : Reports) : Act → Option Reports
  | .job (.finish _) => none
  | .job (.start i) =>
    match r.jobs.step E shell (.start i), r.jobs.threads[i]? with
    | some s, some j =>
      match j.process shell with
      | .ok _ => some { r with jobs := s, live := r.live ++ [j] }
      | .error e => some ({ r with jobs := s }.close shell j (.failed e))
    | _, _ => none
  | .job a => (r.jobs.step E shell a).map fun s => { r with jobs := s }
  | .finish i o =>
    match r.jobs.step E shell (.finish i), r.live[i]? with
    | some s, some j => some ({ r with jobs := s, live := r.live.eraseIdx i }.close shell j o)
    | _, _ => none

/-- The states which can be reached, src/server/mod.rs:353-397. -/
inductive Reach (E : Env) (shell : Commands.Shell) : Reports → Prop where
  | init {w : World} : IsInit E w → Reach E shell { jobs := { world := w } }
  | step {r r' : Reports} (a : Act) : Reach E shell r → r.step E shell a = some r' → Reach E shell r'

/-- A sequence of steps, src/server/notifier.rs:34. -/
def run (E : Env) (shell : Commands.Shell) (r : Reports) : List Act → Option Reports
  | [] => some r
  | a :: l =>
    match r.step E shell a with
    | none => none
    | some r' => r'.run E shell l

end Reports
end Pizauth

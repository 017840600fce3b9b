import Verif.Model.World
import Verif.Model.Commands

/-!
# The threads which run `auth_notify_cmd` and `error_notify_cmd`

In `Model/World.lean` these commands are observed when it is decided that they are to be run. In the code the notifier
first releases the lock, then starts a thread for each reminder; likewise a thread is started for each error. This file
adds those threads.

What commands print, and what is logged if they fail, is in `Model/Reports.lean`.
-/

namespace Pizauth

/-- A command which is to be run, src/server/notifier.rs:77,142. -/
inductive Job where
  /-- `auth_notify_cmd` -/
  | auth (cmd act url : String)
  /-- `error_notify_cmd` -/
  | error (cmd act msg : String)
deriving DecidableEq, Repr

/-- What is started for it, src/server/notifier.rs:87-93,143-149. -/
def Job.process (shell : Commands.Shell) : Job → Except String Commands.Process
  | .auth cmd act url => Commands.authNotify shell cmd act url
  | .error cmd act msg => Commands.errorNotify shell cmd act msg

/-- The reminders which the notifier has collected, src/server/notifier.rs:76-78. -/
def authJob : Obs → Option Job
  | .authCmd cmd act url => some (.auth cmd act url)
  | _ => none

/-- The errors for which `notify_error` starts a thread, src/server/notifier.rs:141-143. -/
def errorJob : Obs → Option Job
  | .errorCmd _ cmd act msg => some (.error cmd act msg)
  | _ => none

/-- The daemon with these threads, src/server/notifier.rs:34-167. -/
structure Jobs where
  world : World
  /-- `auth_cmds`: reminders for which the notifier has not yet started a thread, src/server/notifier.rs:56,86 -/
  todo : List Job := []
  /-- threads which have not yet started their command, src/server/notifier.rs:87,143 -/
  threads : List Job := []
  /-- processes for whose end a thread is waiting, src/server/notifier.rs:94,150 -/
  running : List Commands.Process := []
  /-- what was started when, oldest first -/
  started : List (Instant × Job) := []

namespace Jobs

/-- What can happen, src/server/notifier.rs:34-167. -/
inductive Act where
  /-- anything which happens in `Model/World.lean` -/
  | world (a : Action)
  /-- the notifier starts a thread -/
  | spawn
  /-- the thread with this number starts its command -/
  | start (i : Nat)
  /-- a process ends -/
  | finish (i : Nat)

/-- The observations which a step adds, oldest first. Not in the code. -/
def news (w w' : World) : List Obs := ((w'.log.take (w'.log.length - w.log.length)).map Prod.snd).reverse

/-- Is it the notifier's turn? src/server/notifier.rs:34. -/
def isNotifier : Action → Bool
  | .notifier => true
  | _ => false

/-- One step; `none` if it is not possible, src/server/notifier.rs:34-110,135-167. -/
def step (E : Env) (shell : Commands.Shell) (s : Jobs) : Act → Option Jobs
  | .world a =>
    -- the notifier has to start its threads before it goes on, src/server/notifier.rs:86
    if isNotifier a && !s.todo.isEmpty then none
    else
      (s.world.step E a).map fun w =>
        { s with world := w
                 todo := s.todo ++ (news s.world w).filterMap authJob
                 threads := s.threads ++ (news s.world w).filterMap errorJob }
  | .spawn =>
    match s.world.proc, s.todo with
    | .running, j :: r => some { s with todo := r, threads := s.threads ++ [j] }
    | _, _ => none
  | .start i =>
    match s.world.proc, s.threads[i]? with
    | .running, some j =>
      some { s with threads := s.threads.eraseIdx i
                    started := s.started ++ [(s.world.now, j)]
                    running := match j.process shell with
                      | .ok p => s.running ++ [p]
                      | .error _ => s.running }
    | _, _ => none
  | .finish i =>
    if i < s.running.length then some { s with running := s.running.eraseIdx i } else none

/-- A sequence of steps, src/server/notifier.rs:34. -/
def run (E : Env) (shell : Commands.Shell) (s : Jobs) : List Act → Option Jobs
  | [] => some s
  | a :: r =>
    match s.step E shell a with
    | none => none
    | some s' => s'.run E shell r

/-- The states which can be reached, src/server/mod.rs:353-397. -/
inductive Reach (E : Env) (shell : Commands.Shell) : Jobs → Prop where
  | init {w : World} : IsInit E w → Reach E shell { world := w }
  | step {s s' : Jobs} (a : Act) : Reach E shell s → s.step E shell a = some s' → Reach E shell s'

end Jobs
end Pizauth

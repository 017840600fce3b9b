import Verif.Model.World
import Verif.Model.Commands
import Verif.Model.Messages

/-!
# The process which runs `token_event_cmd`

In `Model/World.lean` the end of `token_event_cmd` can come at any time. Here the process is added, the 30 seconds after
which it is killed, and what is logged about it.

Simplifications: killing succeeds. A process for which waiting fails is not followed any further. If the process has ended
when the 30 seconds are over, then either may be noticed.
-/

namespace Pizauth

/-- `NEW_ACCESS_TOKEN_CMD_TIMEOUT`, in nanoseconds, src/server/eventer.rs:18. -/
def eventLimit : Dur := 30 * 1000000000

/-- What the event thread is waiting for, src/server/eventer.rs:76-106. -/
structure EvChild where
  cmd : String
  act : String
  event : TokenEvent
  since : Instant
  /-- the process, or what is logged because there is none, src/server/eventer.rs:77-82,105,107 -/
  proc : Except String Commands.Process
  /-- has it ended, and with which exit code (none if by a signal)? -/
  exit : Option (Option Int) := none

/-- How it ended, src/server/eventer.rs:84-107. -/
inductive EvEnd where
  | notStarted (msg : String)
  | exited (code : Option Int)
  | killed
  | unwaitable (err : String)
deriving DecidableEq

namespace EvChild

/-- Starting the process; `fails` is the error of the operating system, if any, src/server/eventer.rs:76-82,105,107. -/
def launch (shell : Commands.Shell) (cmd act : String) (e : TokenEvent) (fails : Option String) :
    Except String Commands.Process :=
  match shell with
  | none => .error Commands.noShell
  | some s =>
    match Commands.start s cmd [("PIZAUTH_ACCOUNT", act), ("PIZAUTH_EVENT", e.text)] false, fails with
    | .error m, _ | .ok _, some m => .error ("Couldn't execute '" ++ cmd ++ "': " ++ m)
    | .ok p, none => .ok p

/-- What is logged, src/server/eventer.rs:86-107. -/
def report (c : EvChild) : EvEnd → Option Msg
  | .notStarted m => some ⟨.error, m⟩
  | .exited code =>
    if code = some 0 then none
    else some ⟨.error, "'" ++ c.cmd ++ "' returned " ++ (match code with
      | some n => toString n
      | none => "<Unknown exit code")⟩
  | .killed => some ⟨.error, "'" ++ c.cmd ++ "' exceeded timeout"⟩
  | .unwaitable e => some ⟨.error, "Waiting on '" ++ c.cmd ++ "' failed: " ++ e⟩

end EvChild

/-- The daemon and the process which runs `token_event_cmd`, src/server/eventer.rs:53-113. -/
structure Eventing where
  world : World
  child : Option EvChild := none
  /-- what was run, when the event thread went on, and why (history) -/
  ended : List (EvChild × Instant × EvEnd) := []
  /-- what the event thread has logged, oldest first -/
  said : List Msg := []

namespace Eventing

/-- What can happen, src/server/eventer.rs:53-113. -/
inductive Act where
  /-- anything but the event thread -/
  | world (a : Action)
  /-- the event thread, when it does not wait for a process; the error of the operating system if it starts one -/
  | turn (fails : Option String)
  /-- the process ends, with an exit code or by a signal -/
  | exit (code : Option Int)
  /-- the event thread notices that there is no process (any more) -/
  | reap
  /-- the time is over -/
  | kill
  /-- waiting fails -/
  | waitError (err : String)

/-- Is it the event thread's turn? src/server/eventer.rs:54. -/
def isEventer : Action → Bool
  | .eventer => true
  | _ => false

/-- The command which is run next, src/server/eventer.rs:69-75. -/
def command (w : World) : Option (String × String × TokenEvent) :=
  match w.evPc, w.ls.config.tokenEventCmd with
  | .readCmd act e, some cmd => some (cmd, act, e)
  | _, _ => none

/-- The event thread goes on with the next event, src/server/eventer.rs:86-108,62. -/
def close (E : Env) (s : Eventing) (c : EvChild) (how : EvEnd) : Option Eventing :=
  (s.world.step E .eventer).map fun w =>
    { world := w, child := none, ended := s.ended ++ [(c, s.world.now, how)], said := s.said ++ (c.report how).toList }

/-- One step; `none` if it is not possible, src/server/eventer.rs:53-113. -/
def step (E : Env) (shell : Commands.Shell) (s : Eventing) : Act → Option Eventing
  | .world a => if isEventer a then none else (s.world.step E a).map fun w => { s with world := w }
  | .turn fails =>
    match s.world.evPc with
    | .running => none
    | _ =>
      (s.world.step E .eventer).map fun w =>
        { s with world := w
                 child := (command s.world).map fun (cmd, act, e) =>
                   ⟨cmd, act, e, s.world.now, EvChild.launch shell cmd act e fails, none⟩ }
  | .exit code =>
    match s.child with
    | some c =>
      match c.proc, c.exit with
      | .ok _, none => some { s with child := some { c with exit := some code } }
      | _, _ => none
    | none => none
  | .reap =>
    match s.child with
    | some c =>
      match c.proc, c.exit with
      | .error m, _ => s.close E c (.notStarted m)
      | .ok _, some code => s.close E c (.exited code)
      | .ok _, none => none
    | none => none
  | .kill =>
    match s.child with
    | some c =>
      match c.proc with
      | .ok _ => if c.since + (eventLimit : Int) ≤ s.world.now then s.close E c .killed else none
      | .error _ => none
    | none => none
  | .waitError e =>
    match s.child with
    | some c =>
      match c.proc with
      | .ok _ => s.close E c (.unwaitable e)
      | .error _ => none
    | none => none

/-- The states which can be reached, src/server/mod.rs:353-397. -/
inductive Reach (E : Env) (shell : Commands.Shell) : Eventing → Prop where
  | init {w : World} : IsInit E w → Reach E shell { world := w }
  | step {s s' : Eventing} (a : Act) : Reach E shell s → s.step E shell a = some s' → Reach E shell s'

/-- A sequence of steps, src/server/eventer.rs:54. -/
def run (E : Env) (shell : Commands.Shell) (s : Eventing) : List Act → Option Eventing
  | [] => some s
  | a :: l =>
    match s.step E shell a with
    | none => none
    | some s' => s'.run E shell l

/-- What happens in `Model/World.lean`, src/server/eventer.rs:53-113. -/
def Act.does : Act → Option Action
  | .world a => some a
  | .exit _ => none
  | _ => some .eventer

end Eventing
end Pizauth

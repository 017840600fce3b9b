import Verif.Model.World
import Verif.Model.Commands

/-!
# The processes which run `transient_error_if_cmd`

In `Model/World.lean` the end of `transient_error_if_cmd` can come at any time, with any result. Here the processes are added,
one for each thread which refreshes, and the three minutes after which they are killed.

Simplifications: as in `Model/Eventing.lean`. The texts of errors are in `Model/Commands.lean`.
-/

namespace Pizauth

/-- `TRANSIENT_ERROR_IF_CMD_TIMEOUT`, in nanoseconds, src/server/refresher.rs:27. -/
def probeLimit : Dur := 3 * 60 * 1000000000

/-- What a thread is waiting for, src/server/refresher.rs:167-202. -/
structure Probe where
  cmd : String
  act : String
  since : Instant
  /-- the process, if there is one, src/server/refresher.rs:168-177,199-200 -/
  proc : Option Commands.Process
  /-- has it ended, and with which exit code (none if by a signal)? -/
  exit : Option (Option Int) := none

/-- How it ended, src/server/refresher.rs:177-200. -/
inductive ProbeEnd where
  | notStarted
  | exited (code : Option Int)
  | killed
  | unwaitable
deriving DecidableEq

/-- Is the result `Ok(())`? src/server/refresher.rs:177-200. -/
def ProbeEnd.ok : ProbeEnd → Bool
  | .exited code => code == some 0
  | _ => false

/-- Starting the process; `fails`: the operating system refuses, src/server/refresher.rs:168-177,199-200. -/
def Probe.launch (shell : Commands.Shell) (cmd act : String) (fails : Bool) : Option Commands.Process :=
  match shell with
  | none => none
  | some s =>
    match Commands.start s cmd [("PIZAUTH_ACCOUNT", act)] true with
    | .error _ => none
    | .ok p => if fails then none else some p

/-- The daemon and these processes, src/server/refresher.rs:57-202. -/
structure Probing where
  world : World
  /-- for which process is this thread waiting? -/
  probes : Nat → Option Probe := fun _ => none
  /-- thread, what was run, when the thread went on, and why (history) -/
  ended : List (Nat × Probe × Instant × ProbeEnd) := []

namespace Probing

/-- What can happen, src/server/refresher.rs:57-202. -/
inductive Act where
  /-- anything else -/
  | world (a : Action)
  /-- thread `i` starts a process, or fails to -/
  | start (i : Nat) (fails : Bool)
  /-- the process of thread `i` ends, with an exit code or by a signal -/
  | exit (i : Nat) (code : Option Int)
  /-- thread `i` notices that there is no process (any more) -/
  | reap (i : Nat)
  /-- the time is over -/
  | kill (i : Nat)
  /-- waiting fails -/
  | waitError (i : Nat)

/-- Is a thread about to start a process, or waiting for one? src/server/refresher.rs:168-177. -/
def busy (w : World) : Action → Bool
  | .run i _ =>
    match w.threads i with
    | .rfCmd _ _ _ :: _ | .rfCmdWait _ _ :: _ => true
    | _ => false
  | _ => false

/-- Update of the processes, src/server/refresher.rs:168-177. -/
def set (f : Nat → Option Probe) (i : Nat) (c : Option Probe) : Nat → Option Probe := fun j => if j = i then c else f j

/-- Thread `i` goes on, src/server/refresher.rs:177-200. -/
def close (E : Env) (s : Probing) (i : Nat) (c : Probe) (how : ProbeEnd) : Option Probing :=
  (s.world.step E (.run i { cmdOk := how.ok })).map fun w =>
    { world := w, probes := set s.probes i none, ended := s.ended ++ [(i, c, s.world.now, how)] }

/-- One step; `none` if it is not possible, src/server/refresher.rs:57-202. -/
def step (E : Env) (shell : Commands.Shell) (s : Probing) : Act → Option Probing
  | .world a => if busy s.world a then none else (s.world.step E a).map fun w => { s with world := w }
  | .start i fails =>
    match s.world.threads i with
    | .rfCmd _ act cmd :: _ =>
      (s.world.step E (.run i {})).map fun w =>
        { s with world := w
                 probes := set s.probes i (some ⟨cmd, act, s.world.now, Probe.launch shell cmd act fails, none⟩) }
    | _ => none
  | .exit i code =>
    match s.probes i with
    | some c =>
      match c.proc, c.exit with
      | some _, none => some { s with probes := set s.probes i (some { c with exit := some code }) }
      | _, _ => none
    | none => none
  | .reap i =>
    match s.probes i with
    | some c =>
      match c.proc, c.exit with
      | none, _ => s.close E i c .notStarted
      | some _, some code => s.close E i c (.exited code)
      | some _, none => none
    | none => none
  | .kill i =>
    match s.probes i with
    | some c =>
      match c.proc with
      | some _ => if c.since + (probeLimit : Int) ≤ s.world.now then s.close E i c .killed else none
      | none => none
    | none => none
  | .waitError i =>
    match s.probes i with
    | some c =>
      match c.proc with
      | some _ => s.close E i c .unwaitable
      | none => none
    | none => none

/-- The states which can be reached, src/server/mod.rs:353-397. -/
inductive Reach (E : Env) (shell : Commands.Shell) : Probing → Prop where
  | init {w : World} : IsInit E w → Reach E shell { world := w }
  | step {s s' : Probing} (a : Act) : Reach E shell s → s.step E shell a = some s' → Reach E shell s'

/-- A sequence of steps, src/server/refresher.rs:57. -/
def run (E : Env) (shell : Commands.Shell) (s : Probing) : List Act → Option Probing
  | [] => some s
  | a :: l =>
    match s.step E shell a with
    | none => none
    | some s' => s'.run E shell l

/-- Whose turn is it? src/server/refresher.rs:57-202. -/
def Act.thread : Act → Option Nat
  | .world (.run i _) => some i
  | .start i _ | .reap i | .kill i | .waitError i => some i
  | _ => none

end Probing
end Pizauth

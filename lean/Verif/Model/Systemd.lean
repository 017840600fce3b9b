import Verif.Model.Startup
import Verif.Model.World

/-!
# The systemd service

lib/systemd/user/pizauth.service with one of examples/systemd-dropins/{age,gpg-dump}.conf. The service is of type `simple`:
`ExecStartPost` is run as soon as the main process has been started (systemd.service(5)). The drop-ins have

    ExecStartPost=-sh -c '<decrypt "$PIZAUTH_STATE_FILE"> | pizauth restore'
    ExecStop=-sh -c 'pizauth dump | <encrypt -o "$PIZAUTH_STATE_FILE">'
    ExecStop=/usr/bin/pizauth shutdown

where `-` means that the exit status is ignored. Simplifications: encrypting and decrypting the state file undo each other,
and succeed if there is a file; the service is not stopped before it is done with `ExecStartPost`; a restart is a stop and a
start.
-/

namespace Pizauth.Systemd

/-- What systemd is waiting for, lib/systemd/user/pizauth.service:5-8, examples/systemd-dropins/age.conf:3-6. -/
inductive Job where
  /-- the service is not started -/
  | none
  /-- the service is started, and not being stopped -/
  | active
  /-- `pizauth restore` of `ExecStartPost`, which has not connected yet -/
  | restore
  /-- `pizauth dump` of `ExecStop`, which has not connected yet -/
  | dump
  /-- the server's answer to it -/
  | answer
  /-- `pizauth shutdown` of `ExecStop`, which has not connected yet -/
  | shutdown
  /-- the end of the main process -/
  | exit
deriving DecidableEq, Repr

/-- The service, lib/systemd/user/pizauth.service:4-8, and its state file, examples/systemd-dropins/age.conf:2. -/
structure Service where
  /-- the server processes and their socket file -/
  host : Start.Host
  /-- the main process -/
  main : Nat
  /-- what the main process is, once it serves -/
  world : World
  job : Job
  /-- what decrypting the state file yields -/
  file : Option Bytes

/-- What can happen, lib/systemd/user/pizauth.service:5-8. -/
inductive Act where
  /-- `systemctl start` -/
  | start
  /-- the main process does its next step before it serves requests; `ok`: it is successful -/
  | main (ok : Bool)
  /-- the main process or somebody who talks to it does something -/
  | server (a : Action)
  /-- `systemctl stop` -/
  | stop
  /-- the commands of `ExecStartPost` and `ExecStop` go on -/
  | job

/-- What was written to the client which made the last request, src/user_sender.rs:11-24,79-98. -/
def answered : List (Instant × Obs) → Bytes
  | [] => []
  | (_, .request _) :: _ => []
  | (_, .reply b) :: l => answered l ++ b
  | _ :: l => answered l

/-- The main process is serving requests, src/server/mod.rs:397-403. -/
def Service.serves (s : Service) : Bool :=
  match s.host.procs[s.main]? with
  | some x => decide (x.pc = .serving)
  | none => false

/-- The main process has done something. If it has ended, it no longer serves. A client which waits for an answer reads until
the connection is closed, src/user_sender.rs:11-24, examples/systemd-dropins/age.conf:3-6. -/
def Service.after (s : Service) (w : World) : Service :=
  let s' := if w.proc = .running then { s with world := w }
    else { s with world := w, host := (s.host.step (.kill s.main)).getD s.host }
  if s.job = .answer ∧ (w.proc ≠ .running ∨ (w.threads 0).isEmpty) then
    { s' with job := .shutdown, file := some (answered w.log) }
  else s'

/-- A command of `ExecStartPost` or `ExecStop` makes a request, if the server can be reached,
examples/systemd-dropins/age.conf:3-6. -/
def Service.request (E : Env) (s : Service) (c : Cmd) (refused accepted : Service → Service) : Option Service :=
  if s.host.accepts then (s.world.step E (.connect c.wire)).map fun w => accepted { s with world := w }
  else some (refused s)

/-- `none`: this cannot happen now. `c` is the configuration, `S` the ports, lib/systemd/user/pizauth.service:5-8,
examples/systemd-dropins/age.conf:3-6. -/
def Service.step (E : Env) (c : Config) (S : Static) (s : Service) : Act → Option Service
  -- `ExecStart=/usr/bin/pizauth server -vvvv -d`
  | .start =>
    match s.job, s.host.procs[s.main]? with
    | .none, none => (s.host.step (.start false)).map fun h => { s with host := h, main := s.host.procs.length, job := .restore }
    | .none, some x =>
      if x.pc = .ended then
        (s.host.step (.start false)).map fun h => { s with host := h, main := s.host.procs.length, job := .restore }
      else none
    | _, _ => none
  | .main ok =>
    match s.host.step (.run s.main ok) with
    | none => none
    | some h =>
      let s' := { s with host := h }
      some (if s'.serves then { s' with world := World.init c S s.world.now s.world.wall } else s')
  | .server a =>
    if s.serves then (s.world.step E a).map s.after else none
  -- Its commands are run even if the main process has ended by itself.
  | .stop => if s.job = .active then some { s with job := .dump } else none
  | .job =>
    match s.job with
    | .none => none
    | .active => none
    -- Without a file there is no input for `pizauth restore`.
    | .restore => s.request E (.restore (s.file.getD [])) (fun s => { s with job := .active }) fun s => { s with job := .active }
    -- If `pizauth dump` fails, there is no input for the encryption.
    | .dump => s.request E .dump (fun s => { s with job := .shutdown, file := some [] }) fun s => { s with job := .answer }
    | .answer => none
    | .shutdown => s.request E .shutdown (fun s => { s with job := .exit }) fun s => { s with job := .exit }
    -- systemd ends the process if it has not ended
    | .exit => some { s with job := .none, host := (s.host.step (.kill s.main)).getD s.host }

/-- A sequence of actions, lib/systemd/user/pizauth.service:5-8. -/
def Service.run (E : Env) (c : Config) (S : Static) (s : Service) : List Act → Option Service
  | [] => some s
  | a :: l =>
    match s.step E c S a with
    | none => none
    | some s' => s'.run E c S l

end Pizauth.Systemd

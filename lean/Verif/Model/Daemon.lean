import Verif.Model.Accept
import Verif.Model.Browsers
import Verif.Model.Jobs

/-!
# The daemon with its clients, browsers and commands

`Model/Accept.lean`, `Model/Browsers.lean` and `Model/Jobs.lean` each add one thing to `Model/World.lean`. Here they are put
together: each of the three goes on by itself, and what happens in the server happens in all of them at the same time
(src/server/mod.rs:353-405).
-/

namespace Pizauth

/-- What the main thread does in the server when it reads from a client, src/server/mod.rs:81,399-401. -/
def Front.does (f : Front) : FrontAct → Option Action
  | .read _ =>
    match f.current with
    | some (c, buf) =>
      match c.state with
      | .shut => if c.unread.isEmpty then some (.connect buf) else none
      | _ => none
    | none => none
  | _ => none

/-- What the thread of a browser does in the server when it has read the request, src/server/http_server.rs:47. -/
def Visits.does (f : Visits) : WebAct → Option Action
  | .read i =>
    match f.pages[i]? with
    | some p => if p.gone then none else some (.http p.arrived p.isHttps)
    | none => none
  | _ => none

/-- The server, clients, browsers and commands, src/server/mod.rs:353-405. -/
structure Daemon where
  front : Front
  web : Visits
  jobs : Jobs

/-- What happens, src/server/mod.rs:353-405. -/
inductive DaemonAct where
  | client (a : FrontAct)
  | browser (a : WebAct)
  | command (a : Jobs.Act)
  /-- anything else which happens in the server -/
  | other (a : Action)

namespace Daemon

/-- The server, src/server/mod.rs:372. -/
def world (d : Daemon) : World := d.front.world

/-- One step; `none` if it is not possible, src/server/mod.rs:353-405. -/
def step (E : Env) (shell : Commands.Shell) (d : Daemon) : DaemonAct → Option Daemon
  | .client (.other _) => none
  | .client a =>
    match d.front.step E a with
    | none => none
    | some f =>
      match d.front.does a with
      | none => some { d with front := f }
      | some x =>
        match d.web.step E (.other x), d.jobs.step E shell (.world x) with
        | some v, some j => some ⟨f, v, j⟩
        | _, _ => none
  | .browser (.other _) => none
  | .browser a =>
    match d.web.step E a with
    | none => none
    | some v =>
      match d.web.does a with
      | none => some { d with web := v }
      | some x =>
        match d.front.step E (.other x), d.jobs.step E shell (.world x) with
        | some f, some j => some ⟨f, v, j⟩
        | _, _ => none
  | .command (.world _) => none
  | .command a =>
    match d.jobs.step E shell a with
    | none => none
    | some j => some { d with jobs := j }
  | .other a =>
    match d.front.step E (.other a), d.web.step E (.other a), d.jobs.step E shell (.world a) with
    | some f, some v, some j => some ⟨f, v, j⟩
    | _, _, _ => none

/-- A sequence of steps, src/server/mod.rs:353-405. -/
def run (E : Env) (shell : Commands.Shell) (d : Daemon) : List DaemonAct → Option Daemon
  | [] => some d
  | a :: r =>
    match d.step E shell a with
    | none => none
    | some d' => d'.run E shell r

/-- Right after start-up, src/server/mod.rs:353-397. -/
structure IsInit (E : Env) (d : Daemon) : Prop where
  front : d.front.IsInit E
  web : d.web = ⟨d.front.world, [], []⟩
  jobs : d.jobs = { world := d.front.world }

end Daemon
end Pizauth

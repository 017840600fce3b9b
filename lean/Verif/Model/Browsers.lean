import Verif.Model.World
import Verif.Model.HttpStream

/-!
# Connections to the HTTP and HTTPS servers

In `Model/World.lean` a browser's request arrives whole. Here browsers connect, send in pieces, close their side or go
away, at any time. Each connection has its own thread, which reads until `parse_get` has come to an end
(src/server/http_server.rs:36-56,385-466).

Simplifications: the TLS handshake is not modelled; a connection that was reset is noticed by the next read; that the
server closes a connection after it has answered is not modelled (what a browser sends then is not read).
-/

namespace Pizauth

/-- A connection, src/server/http_server.rs:390,450. -/
structure Page where
  isHttps : Bool
  /-- everything the browser has sent -/
  arrived : Bytes
  /-- it has closed its side -/
  ended : Bool
  /-- it has gone away: reading fails -/
  gone : Bool
  /-- the thread has come to the end of `parse_get` -/
  read : Bool
deriving DecidableEq, Repr

/-- The server and the browsers, src/server/http_server.rs:385-466. -/
structure Visits where
  world : World
  /-- all connections, in the order in which they were made -/
  pages : List Page
  /-- the requests which were handled: number of the connection, what had arrived, and over which server (history) -/
  handled : List (Nat × Bytes × Bool)

/-- What browsers and the server do, src/server/http_server.rs:385-466. -/
inductive WebAct where
  | connect (isHttps : Bool)
  | send (i : Nat) (b : Bytes)
  | shut (i : Nat)
  | reset (i : Nat)
  /-- the thread of the connection comes to the end of `parse_get`, src/server/http_server.rs:47 -/
  | read (i : Nat)
  /-- anything else which happens in the server -/
  | other (a : Action)

namespace Visits

/-- Changes one connection, if the browser has not ended it, src/server/http_server.rs:390. -/
def onPage (f : Visits) (i : Nat) (g : Page → Page) : Option Visits :=
  match f.pages[i]? with
  | some p => if p.ended || p.gone then none else some { f with pages := f.pages.set i (g p) }
  | none => none

/-- One action; `none` if it is not possible, src/server/http_server.rs:36-56,385-466. -/
def step (E : Env) (f : Visits) : WebAct → Option Visits
  | .connect sec =>
    -- src/server/http_server.rs:389-392,448-459: a new thread
    match f.world.proc with
    | .running =>
      if (if sec then f.world.st.httpsPort else f.world.st.httpPort).isSome then
        some { f with pages := f.pages ++ [⟨sec, [], false, false, false⟩] }
      else none
    | _ => none
  | .send i b => f.onPage i fun p => { p with arrived := p.arrived ++ b }
  | .shut i => f.onPage i fun p => { p with ended := true }
  | .reset i => f.onPage i fun p => { p with gone := true }
  | .read i =>
    match f.world.proc, f.pages[i]? with
    | .running, some p =>
      if p.read then none
      -- reading fails, and so does writing the answer, src/server/http_server.rs:49-54
      else if p.gone then some { f with pages := f.pages.set i { p with read := true } }
      else
        match streamGet E p.arrived p.ended p.isHttps with
        | none => none
        | some _ =>
          (f.world.step E (.http p.arrived p.isHttps)).map fun w =>
            { world := w, pages := f.pages.set i { p with read := true }
              handled := f.handled ++ [(i, p.arrived, p.isHttps)] }
    | _, _ => none
  | .other a =>
    match a with
    | .http _ _ => none
    | a => (f.world.step E a).map fun w => { f with world := w }

/-- A sequence of actions, src/server/http_server.rs:385-466. -/
def run (E : Env) (f : Visits) : List WebAct → Option Visits
  | [] => some f
  | a :: r =>
    match f.step E a with
    | none => none
    | some f' => f'.run E r

/-- Right after start-up, src/server/mod.rs:353-397. -/
structure IsInit (E : Env) (f : Visits) : Prop where
  world : Pizauth.IsInit E f.world
  pages : f.pages = []
  handled : f.handled = []

end Visits
end Pizauth

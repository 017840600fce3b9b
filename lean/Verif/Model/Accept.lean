import Verif.Model.World

/-!
# Connections to the socket

In `Model/World.lean` a client's request arrives whole. Here clients connect, send in pieces, close their side or go away,
at any time; the main thread accepts one connection after the other and reads it to the end (src/server/mod.rs:79-81,
398-403). Simplifications: the queue of connections which have not been accepted is unbounded; a connection that was reset
is noticed by the next read.
-/

namespace Pizauth

/-- What the client has done to a connection, apart from sending, src/server/mod.rs:81. -/
inductive ConnState where
  | open
  /-- it has closed its side: the server reads to the end -/
  | shut
  /-- it has gone away: reading fails -/
  | reset
deriving DecidableEq

/-- A connection, from the client's side, src/server/mod.rs:79,398. -/
structure Conn where
  id : Nat
  /-- what has been sent and not been read -/
  unread : Bytes
  state : ConnState

/-- The server and its clients, src/server/mod.rs:397-403. -/
structure Front where
  world : World
  /-- the number of connections so far; they are numbered in this order -/
  next : Nat
  /-- what was sent over each connection (history) -/
  sent : Nat → Bytes
  /-- connections which have not been accepted, oldest first -/
  backlog : List Conn
  /-- the connection which is being read, and what has been read -/
  current : Option (Conn × Bytes)
  /-- the connections which have been dealt with, in this order, and whether there was a request (history) -/
  done : List (Nat × Bool)

/-- What clients and the main thread do, src/server/mod.rs:81,397-403. -/
inductive FrontAct where
  | connect
  | send (id : Nat) (b : Bytes)
  | shut (id : Nat)
  | reset (id : Nat)
  /-- `listener.incoming()`, src/server/mod.rs:399 -/
  | accept
  /-- one `read` within `read_to_end`, src/server/mod.rs:81, of `k` bytes; or its end -/
  | read (k : Nat)
  /-- anything else which happens in the server -/
  | other (a : Action)

namespace Front

/-- The connections, src/server/mod.rs:398. -/
def conns (f : Front) : List Conn := (f.current.map (·.1)).toList ++ f.backlog

/-- Changes one connection, src/server/mod.rs:398-403. -/
def onConn (f : Front) (id : Nat) (g : Conn → Conn) : Front :=
  { f with backlog := f.backlog.map fun c => if c.id = id then g c else c
           current := f.current.map fun p => (if p.1.id = id then g p.1 else p.1, p.2) }

/-- Is the connection there, and not closed? src/server/mod.rs:81. -/
def isOpen (f : Front) (id : Nat) : Bool := f.conns.any fun c => c.id == id && c.state == .open

/-- One action; `none` if it is not possible, src/server/mod.rs:79-97,397-403. -/
def step (E : Env) (f : Front) : FrontAct → Option Front
  | .connect => some { f with next := f.next + 1, backlog := f.backlog ++ [⟨f.next, [], .open⟩] }
  | .send id b =>
    if f.isOpen id then
      some { f.onConn id fun c => { c with unread := c.unread ++ b } with
             sent := fun i => if i = id then f.sent i ++ b else f.sent i }
    else none
  | .shut id => if f.isOpen id then some (f.onConn id fun c => { c with state := .shut }) else none
  | .reset id => some (f.onConn id fun c => { c with state := .reset })
  | .accept =>
    match f.world.proc, f.current, f.backlog with
    | .running, none, c :: r =>
      if (f.world.threads 0).isEmpty then some { f with current := some (c, []), backlog := r } else none
    | _, _, _ => none
  | .read k =>
    match f.world.proc, f.current with
    | .running, some (c, buf) =>
      match c.state with
      | .reset => some { f with current := none, done := f.done ++ [(c.id, false)] }
      | s =>
        if c.unread.isEmpty then
          match s with
          | .shut => (f.world.step E (.connect buf)).map fun w =>
              { f with world := w, current := none, done := f.done ++ [(c.id, true)] }
          | _ => none
        else if 0 < k ∧ k ≤ c.unread.length then
          some { f with current := some ({ c with unread := c.unread.drop k }, buf ++ c.unread.take k) }
        else none
    | _, _ => none
  | .other a =>
    match a with
    | .connect _ => none
    | a => (f.world.step E a).map fun w => { f with world := w }

/-- A sequence of actions, src/server/mod.rs:398-403. -/
def run (E : Env) (f : Front) : List FrontAct → Option Front
  | [] => some f
  | a :: r =>
    match f.step E a with
    | none => none
    | some f' => f'.run E r

end Front

/-- Right after start-up, src/server/mod.rs:397. -/
structure Front.IsInit (E : Env) (f : Front) : Prop where
  world : Pizauth.IsInit E f.world
  next : f.next = 0
  sent : ∀ i, f.sent i = []
  backlog : f.backlog = []
  current : f.current = none
  done : f.done = []

end Pizauth

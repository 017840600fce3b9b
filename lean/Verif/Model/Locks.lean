import Verif.Model.Prelude

/-!
# Locks

Which locks the threads of the daemon take, and what they wait for, in which order; everything else is left out. The
rest of the model takes each critical section as one step: this is the justification.
-/

namespace Pizauth.Locks

/-- The locks: src/server/state.rs:48, src/server/refresher.rs:44-48, src/server/notifier.rs:17-21,
src/server/eventer.rs:38-42. -/
inductive Lock where
  /-- `locked_state`, src/server/state.rs:48: the global lock -/
  | state
  /-- `pred`, src/server/refresher.rs:45 -/
  | refresher
  /-- `pred`, src/server/notifier.rs:18 -/
  | notifier
  /-- `pred`, src/server/eventer.rs:39 -/
  | eventer
  /-- `event_queue`, src/server/eventer.rs:41 -/
  | queue
deriving DecidableEq, Repr

/-- Taking and releasing locks, waiting, and what takes time: src/server/state.rs:90-95,
src/server/refresher.rs:442-480. -/
inductive Op where
  | acquire (l : Lock)
  | release (l : Lock)
  /-- waits for the answer to a request to a token server -/
  | net
  /-- waits for a command -/
  | cmd
  /-- sleeps, for some time or until it is woken -/
  | sleep
  /-- waits until a client has sent its request -/
  | read
  /-- waits until the answer to a client is written -/
  | write
deriving DecidableEq, Repr

/-- What a thread may do, src/server/mod.rs:79-302, src/server/http_server.rs:38-249, src/server/refresher.rs:57-165. -/
inductive Prog where
  | skip
  | op (o : Op)
  | seq (p q : Prog)
  | alt (p q : Prog)
  /-- any number of times -/
  | star (p : Prog)

infixr:60 " ;; " => Prog.seq
infixr:55 " <|||> " => Prog.alt

/-- A critical section, src/server/state.rs:90-95. -/
def section_ (l : Lock) : Prog := .op (.acquire l) ;; .op (.release l)

/-- Something which is done or not. -/
def opt (p : Prog) : Prog := p <|||> .skip

/-- `Refresher::notify_changes`, src/server/refresher.rs:435-439. -/
def wakeRefresher : Prog := section_ .refresher

/-- `Notifier::notify_changes`, src/server/notifier.rs:116-120. -/
def wakeNotifier : Prog := section_ .notifier

/-- `Eventer::token_event`, src/server/eventer.rs:115-120. -/
def tokenEvent : Prog := section_ .queue ;; section_ .eventer

/-- `Notifier::notify_error`, src/server/notifier.rs:136-170. (The command is run by another thread.) -/
def notifyError : Prog := section_ .state

/-- `request_token`, src/server/request_token.rs:11-66, called with the global lock: with an error, or without. -/
def requestToken : Prog := .op (.release .state) <|||> .op (.release .state) ;; wakeNotifier

/-- `AuthenticatorState::update_conf`, src/server/state.rs:97-104. -/
def updateConf : Prog := section_ .state ;; wakeNotifier ;; wakeRefresher

/-- `AuthenticatorState::restore`, src/server/state.rs:127-144. -/
def restore : Prog := .skip <|||> section_ .state ;; wakeNotifier ;; wakeRefresher

/-- The answer is written, or it cannot be, src/server/mod.rs:100,122,129. -/
def answer : Prog := opt (.op .write)

/-- A request on the Unix socket other than `status`, src/server/mod.rs:79-302. -/
def unixRequest : Prog :=
  .op .read ;;
  (.skip                                                              -- 83-98 not a request
    <|||> opt (section_ .state) ;; answer                             -- 101-104 dump; info; unknown; shutdown
    <|||> updateConf ;; answer                                        -- 127-131 reload
    <|||> section_ .state ;; answer                                   -- no such account; 149-155 pending; token
    <|||> .op (.acquire .state) ;; requestToken ;; answer             -- 147-148, 206-207
    <|||> restore ;; answer                                           -- 165-170
    <|||> section_ .state ;; tokenEvent ;; answer)                    -- 172-184 revoke

/-- `status`, src/server/mod.rs:249-298: the lock is held while the answer is written. -/
def statusRequest : Prog := .op .read ;; .op (.acquire .state) ;; .op .write ;; .op (.release .state)

/-- `fail`, src/server/http_server.rs:251-278. -/
def fail : Prog := section_ .state ;; opt (notifyError ;; opt tokenEvent)

/-- A request on the HTTP port, src/server/http_server.rs:38-246. -/
def httpRequest : Prog :=
  .op .read ;;
  (answer                                                             -- 48-66
    <|||> section_ .state ;; answer                                   -- 68-92, 115-118
    <|||> section_ .state ;; answer ;; notifyError                    -- 95-107
    <|||> section_ .state ;; answer ;;                                -- 122-152
      .star (.op .net ;; .op .sleep) ;;                               -- 158-184
      (fail                                                           -- 172-190
        <|||> .op .net ;;
          (fail                                                       -- 172-182, 194-200
            <|||> section_ .state ;;                                  -- 203-245
              (.skip <|||> fail <|||> wakeRefresher ;; tokenEvent))))

/-- A refresh thread, src/server/refresher.rs:59-163 and 211-372. -/
def refreshThread : Prog :=
  section_ .state ;;
  opt (.op .net ;;
    (section_ .state ;; (.skip <|||> tokenEvent <|||> wakeRefresher ;; tokenEvent)
      <|||> section_ .state ;;                                        -- 85-159
        opt (.op .cmd ;; section_ .state ;; opt tokenEvent) ;; wakeRefresher))

/-- One turn of the refresher, src/server/refresher.rs:447-487. -/
def refresherTurn : Prog :=
  section_ .state ;;
  .op (.acquire .refresher) ;;
  .star (.op (.release .refresher) ;; .op .sleep ;; .op (.acquire .refresher)) ;;
  .op (.release .refresher) ;;
  section_ .state

/-- One turn of the notifier, src/server/notifier.rs:34-113. (The commands are run by other threads.) -/
def notifierTurn : Prog :=
  section_ .state ;;
  .op (.acquire .notifier) ;;
  .star (.op (.release .notifier) ;; .op .sleep ;; .op (.acquire .notifier)) ;;
  .op (.release .notifier) ;;
  section_ .state

/-- One turn of the eventer, src/server/eventer.rs:54-110. -/
def eventerTurn : Prog :=
  .op (.acquire .eventer) ;;
  .star (.op (.release .eventer) ;; .op .sleep ;; .op (.acquire .eventer)) ;;
  .op (.release .eventer) ;;
  .star (section_ .queue ;; section_ .state ;; .op .cmd) ;;
  section_ .queue ;; opt (section_ .state)

/-- A thread which runs a command for the notifier, src/server/notifier.rs:88-109 and 144-164. -/
def commandThread : Prog := .op .cmd

/-- The main thread, src/server/mod.rs:398-403: one client after the other. -/
def mainThread : Prog := .star (statusRequest <|||> unixRequest)

/-- All the programs, except that there is no `status`, src/server/mod.rs:79-302, src/server/http_server.rs:38-278,
src/server/refresher.rs:57-165,442-480, src/server/notifier.rs:30-114, src/server/eventer.rs:53-113. -/
def programs : List Prog :=
  [.star unixRequest, httpRequest, refreshThread, .star refresherTurn, .star notifierTurn, .star eventerTurn,
    commandThread]

/-- All the programs, src/server/mod.rs:79-302. -/
def allPrograms : List Prog := mainThread :: programs

/-! ## Executions -/

/-- The sequences of operations of a program, src/server/mod.rs:79-302. -/
inductive Prog.Path : Prog → List Op → Prop where
  | skip : Prog.Path .skip []
  | op (o : Op) : Prog.Path (.op o) [o]
  | seq {p q : Prog} {a b : List Op} (ha : p.Path a) (hb : q.Path b) : Prog.Path (.seq p q) (a ++ b)
  | left {p q : Prog} {a : List Op} (ha : p.Path a) : Prog.Path (.alt p q) a
  | right {p q : Prog} {b : List Op} (hb : q.Path b) : Prog.Path (.alt p q) b
  | zero {p : Prog} : Prog.Path (.star p) []
  | more {p : Prog} {a b : List Op} (ha : p.Path a) (hb : Prog.Path (.star p) b) : Prog.Path (.star p) (a ++ b)

/-- The threads, with what they still have to do, and the locks with the threads which hold them,
src/server/state.rs:44-58. -/
structure Sys where
  threads : List (List Op)
  owner : Lock → Option Nat

/-- Threads begin, and do what is next. -/
inductive Act where
  /-- a thread begins -/
  | spawn (ops : List Op)
  /-- a thread does its next operation -/
  | go (i : Nat)

/-- `none`: this cannot happen now (for example since the lock is not free). `Mutex` and `Condvar`,
src/server/state.rs:90-95, src/server/refresher.rs:435-440. -/
def Sys.step (s : Sys) : Act → Option Sys
  | .spawn ops => some { s with threads := s.threads ++ [ops] }
  | .go i =>
    match s.threads[i]? with
    | none => none
    | some [] => none
    | some (.acquire l :: r) =>
      if s.owner l = none then some ⟨s.threads.set i r, fun k => if k = l then some i else s.owner k⟩ else none
    | some (.release l :: r) =>
      if s.owner l = some i then some ⟨s.threads.set i r, fun k => if k = l then none else s.owner k⟩ else none
    | some (_ :: r) => some { s with threads := s.threads.set i r }

/-- Reachable states: the threads run the programs `ps`, src/server/mod.rs:324-406. -/
inductive Reach (ps : List Prog) : Sys → Prop where
  | init : Reach ps ⟨[], fun _ => none⟩
  | spawn {s s' : Sys} {ops : List Op} {p : Prog} (hr : Reach ps s) (hp : p ∈ ps) (ho : p.Path ops)
      (hs : s.step (.spawn ops) = some s') : Reach ps s'
  | go {s s' : Sys} {i : Nat} (hr : Reach ps s) (hs : s.step (.go i) = some s') : Reach ps s'

end Pizauth.Locks

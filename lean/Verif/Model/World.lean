import Verif.Model.Server

/-!
# The daemon as a transition system

`World` is the whole process; `step` performs one action of the environment, of one of the threads started by
requests, or of one of the three permanent threads (refresher, notifier, eventer).
-/

namespace Pizauth

/-- `MAX_WAIT_SECS`, src/server/mod.rs:55. -/
def maxWait : Dur := secs 37

/-- `Refresher::refresh_at`, src/server/refresher.rs:374-417. Outer `none`: panic. -/
def refreshAt (ls : LockedState) (now : Instant) (id : AccountId) : Option (Option Instant) :=
  match ls.tokenstate id with
  | none => none
  | some (.active a) =>
    if a.ongoing then some none
    else
      match ls.account id with
      | none => none
      | some act =>
        let normal : Instant :=
          let e := (checkedSub a.expiry (act.effRefreshBeforeExpiry ls.config)).getD (min now a.expiry)
          match checkedAdd a.obtained (act.effRefreshAtLeast ls.config) with
          | some t => min e t
          | none => e
        match a.lastAttempt with
        | some lra =>
          match checkedAdd lra (act.effRefreshRetry ls.config) with
          | some t => some (some t)
          | none => some (some normal)
        | none => some (some normal)
  | some _ => some none

/-- `notify_at`, src/server/notifier.rs:175-191. Outer `none`: panic. -/
def notifyAt (ls : LockedState) (now : Instant) (id : AccountId) : Option (Option Instant) :=
  match ls.tokenstate id with
  | none => none
  | some (.pending p) =>
    match p.lastNotification with
    | none => some (some now)
    | some t => some (checkedAdd t ls.config.authNotifyInterval)
  | some _ => some none

/-- `Iterator::min`, src/server/refresher.rs:419-433, src/server/notifier.rs:122-134. -/
def minTime : List Instant → Option Instant
  | [] => none
  | t :: r =>
    match minTime r with
    | none => some t
    | some m => some (min t m)

/-- `next_wakeup`, src/server/refresher.rs:419-431 and src/server/notifier.rs:122-134: the earliest of the times, but
at most 37 seconds from now. -/
def nextWakeup (now : Instant) (ts : List (Option Instant)) : Option Instant :=
  (minTime (ts.filterMap id)).map fun t =>
    match checkedAdd now maxWait with
    | some x => min t x
    | none => t

/-- The accounts to refresh, src/server/refresher.rs:471-481 (`none`: panic). -/
def dueIds (ls : LockedState) (now : Instant) : List AccountId → Option (List AccountId)
  | [] => some []
  | id :: r =>
    match refreshAt ls now id, dueIds ls now r with
    | some (some t), some l => some (if t ≤ now then id :: l else l)
    | some none, some l => some l
    | _, _ => none

/-- Is the user to be told now about this pending authorisation? src/server/notifier.rs:69-75. -/
def notifyDue (interval : Dur) (now : Instant) (p : PendingTok) : Bool :=
  match p.lastNotification with
  | none => true
  | some t =>
    match checkedAdd t interval with
    | some t' => !decide (t' > now)
    | none => true

/-- The loop at src/server/notifier.rs:61-84 (`none`: panic): the new state and the commands to run
(`cmd`, account, URL). -/
def notifyLoop (E : Env) (now : Instant) (interval : Dur) :
    List AccountId → LockedState → Option (LockedState × List Obs)
  | [], ls => some (ls, [])
  | id :: r, ls =>
    match ls.tokenstate id with
    | none => none
    | some (.pending p) =>
      if notifyDue interval now p then
        match ls.account id, ls.tokenstateReplace id (.pending { p with lastNotification := some now }) with
        | some act, some (_, ls') =>
          (notifyLoop E now interval r ls').map fun (ls'', cmds) =>
            (ls'', (match ls.config.authNotifyCmd with
              | some cmd => [.authCmd cmd act.name (E.renderUrl p.url)]
              | none => []) ++ cmds)
        | _, _ => none
      else notifyLoop E now interval r ls
    | some _ => notifyLoop E now interval r ls

/-- Where the refresher or the notifier thread is in its loop, src/server/refresher.rs:442-480,
src/server/notifier.rs:30-114. -/
inductive Pc where
  /-- about to compute its next wake-up time -/
  | compute
  /-- waiting for its predicate or for the time -/
  | wait (deadline : Option Instant)
  /-- about to look at the accounts -/
  | scan
deriving DecidableEq, Repr

/-- Where the eventer thread is in its loop, src/server/eventer.rs:53-113. -/
inductive EvPc where
  | wait
  | drain
  | readCmd (act : String) (e : TokenEvent)
  | running
deriving DecidableEq, Repr

/-- State of the process, src/server/mod.rs:398-405. -/
inductive Proc where
  | running
  /-- a thread panicked (`panic = "abort"`, Cargo.toml) -/
  | aborted
  /-- `pizauth shutdown` -/
  | terminated
deriving DecidableEq, Repr

/-- The whole process, its clocks, and the history of what could be observed (newest first, with the time on
the daemon's clock). Thread 0 is the main thread, which serves the Unix socket, src/server/mod.rs:324-406,
src/server/state.rs:44-58. -/
structure World where
  now : Instant
  wall : SysTime
  st : Static
  ls : LockedState
  threads : Nat → List Op
  nextTid : Nat
  refPred : Bool
  refPc : Pc
  notPred : Bool
  notPc : Pc
  evQueue : List (String × TokenEvent)
  evPred : Bool
  evPc : EvPc
  proc : Proc
  log : List (Instant × Obs)

/-- Actions, src/server/mod.rs:398-403, src/server/http_server.rs:385-400. -/
inductive Action where
  /-- time passes -/
  | tick (d : Dur)
  /-- the wall clock is adjusted -/
  | setWall (t : SysTime)
  /-- a client connects to the Unix socket and sends `buf` -/
  | connect (buf : Bytes)
  /-- a client connects to the HTTP or HTTPS server and sends `buf` -/
  | http (buf : Bytes) (isHttps : Bool)
  /-- thread `tid` performs its next operation -/
  | run (tid : Nat) (inp : Input)
  | refresher
  | notifier
  | eventer

/-- Update of the thread table. `thread::spawn`, e.g. src/server/refresher.rs:59. -/
def setThread (f : Nat → List Op) (tid : Nat) (ops : List Op) : Nat → List Op :=
  fun i => if i = tid then ops else f i

/-- Start one thread for each operation in the list. `thread::spawn`, e.g. src/server/refresher.rs:59. -/
def spawnAll (f : Nat → List Op) (next : Nat) : List Op → Nat → List Op
  | [] => f
  | op :: r => spawnAll (setThread f next [op]) (next + 1) r

namespace World

/-- Add observations (oldest first in the argument) to the log. Not in the code. -/
def observe (w : World) (os : List Obs) : World :=
  { w with log := (os.map fun o => (w.now, o)).reverse ++ w.log }

/-- Apply the effect of an operation of thread `tid`, whose remaining operations are `rest`, src/server/mod.rs:398-403,
src/server/http_server.rs:385-400, src/server/refresher.rs:57-59. -/
def apply (w : World) (tid : Nat) (rest : List Op) (e : Eff) : World :=
  { w with
    ls := e.ls
    threads := spawnAll (setThread w.threads tid (e.next ++ rest)) w.nextTid e.spawn
    nextTid := w.nextTid + e.spawn.length
    refPred := w.refPred || e.wakeRef
    notPred := w.notPred || e.wakeNot
    evPred := w.evPred || e.wakeEv
    evQueue := w.evQueue ++ e.push
    proc := if e.term then .terminated else w.proc
    log := (e.obs.map fun o => (w.now, o)).reverse ++ w.log }

/-- Does the wait at src/server/refresher.rs:450-466 / src/server/notifier.rs:37-53 end? Spurious wake-ups only
re-evaluate this test. -/
def waitOver (pred : Bool) (deadline : Option Instant) (now : Instant) : Bool :=
  pred ||
    match deadline with
    | some t => (checkedDurationSince t now).isNone
    | none => false

/-- The refresher thread, src/server/refresher.rs:447-487. -/
def stepRefresher (w : World) : Option World :=
  match w.refPc with
  | .compute =>
    match optAll (refreshAt w.ls w.now) w.ls.actIds with
    | none => some { w with proc := .aborted }
    | some ts => some { w with refPc := .wait (nextWakeup w.now ts) }
  | .wait d =>
    if waitOver w.refPred d w.now then some { w with refPred := false, refPc := .scan } else none
  | .scan =>
    match dueIds w.ls w.now w.ls.actIds with
    | none => some { w with proc := .aborted }
    | some ids =>
      some { w with
        threads := spawnAll w.threads w.nextTid (ids.map Op.rfStart)
        nextTid := w.nextTid + ids.length
        refPc := .compute }

/-- The notifier thread, src/server/notifier.rs:34-111. Simplification: the threads which run `auth_notify_cmd`
are not modelled; the command is observed when they are started. -/
def stepNotifier (E : Env) (w : World) : Option World :=
  match w.notPc with
  | .compute =>
    match optAll (notifyAt w.ls w.now) w.ls.actIds with
    | none => some { w with proc := .aborted }
    | some ts => some { w with notPc := .wait (nextWakeup w.now ts) }
  | .wait d =>
    if waitOver w.notPred d w.now then some { w with notPred := false, notPc := .scan } else none
  | .scan =>
    match notifyLoop E w.now w.ls.config.authNotifyInterval w.ls.actIds w.ls with
    | none => some { w with proc := .aborted }
    | some (ls', cmds) => some ({ w with ls := ls', notPc := .compute }.observe cmds)

/-- The eventer thread, src/server/eventer.rs:54-110. -/
def stepEventer (w : World) : Option World :=
  match w.evPc with
  | .wait => if w.evPred then some { w with evPred := false, evPc := .drain } else none
  | .drain =>
    match w.evQueue with
    | [] => some { w with evPc := .wait }
    | (act, e) :: r => some { w with evQueue := r, evPc := .readCmd act e }
  | .readCmd act e =>
    match w.ls.config.tokenEventCmd with
    | none => some { w with evPc := .wait }
    | some cmd => some ({ w with evPc := .running }.observe [.eventCmd cmd act e])
  | .running => some ({ w with evPc := .drain }.observe [.eventCmdEnd])

/-- One action; `none` if it is not possible in this state, src/server/mod.rs:398-403,
src/server/http_server.rs:385-400, src/server/refresher.rs:442-480, src/server/notifier.rs:30-114,
src/server/eventer.rs:53-113. -/
def step (E : Env) (w : World) (a : Action) : Option World :=
  match w.proc with
  | .aborted | .terminated => none
  | .running =>
    match a with
    | .tick d => some { w with now := w.now + (d : Int), wall := w.wall + (d : Int) }
    | .setWall t => some { w with wall := t }
    | .connect buf =>
      -- src/server/mod.rs:398-403: the main thread serves one connection after the other
      if (w.threads 0).isEmpty then
        some ({ w with threads := setThread w.threads 0 [.unix buf, .close] }.observe [.request buf])
      else none
    | .http buf isHttps =>
      -- src/server/http_server.rs:389-398,448-466
      if (if isHttps then w.st.httpsPort else w.st.httpPort).isSome then
        some ({ w with threads := setThread w.threads w.nextTid [.http buf isHttps]
                       nextTid := w.nextTid + 1 }.observe [.httpReq w.nextTid buf isHttps])
      else none
    | .run tid inp =>
      match w.threads tid with
      | [] => none
      | op :: rest =>
        match exec E w.st w.now w.wall w.ls tid op inp with
        | .panic => some { w with proc := .aborted }
        | .disabled => none
        | .ok e => some (w.apply tid rest e)
    | .refresher => w.stepRefresher
    | .notifier => w.stepNotifier E
    | .eventer => w.stepEventer

/-- A sequence of actions, src/server/mod.rs:398-403. -/
def run (E : Env) (w : World) : List Action → Option World
  | [] => some w
  | a :: r =>
    match w.step E a with
    | none => none
    | some w' => w'.run E r

end World

/-- The process right after start-up, src/server/mod.rs:353-397, with an accepted configuration. The ports are those
the operating system gave to the servers which the configuration enables. -/
structure IsInit (E : Env) (w : World) : Prop where
  conf : w.ls.config.Ok E
  ls : w.ls = LockedState.new w.ls.config
  httpPort : w.st.httpPort.isSome = w.ls.config.httpListen.isSome
  httpsPort : w.st.httpsPort.isSome = w.ls.config.httpsListen.isSome
  threads : ∀ tid, w.threads tid = []
  nextTid : w.nextTid = 1
  refPred : w.refPred = false
  refPc : w.refPc = .compute
  notPred : w.notPred = false
  notPc : w.notPc = .compute
  evQueue : w.evQueue = []
  evPred : w.evPred = false
  evPc : w.evPc = .wait
  proc : w.proc = .running
  log : w.log = []

/-- A concrete initial state, src/server/mod.rs:353-397. -/
def World.init (c : Config) (S : Static) (now : Instant) (wall : SysTime) : World :=
  { now := now, wall := wall, st := S, ls := LockedState.new c, threads := fun _ => [], nextTid := 1,
    refPred := false, refPc := .compute, notPred := false, notPc := .compute, evQueue := [],
    evPred := false, evPc := .wait, proc := .running, log := [] }

/-- States the daemon can be in: any number of actions, in any order, from a state right after start-up,
src/server/mod.rs:324-406. -/
inductive Reach (E : Env) : World → Prop where
  | init {w : World} : IsInit E w → Reach E w
  | step {w w' : World} (a : Action) : Reach E w → w.step E a = some w' → Reach E w'

end Pizauth

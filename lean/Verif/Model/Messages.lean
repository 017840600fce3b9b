import Verif.Model.World

/-!
# What the server logs

`Model/World.lean` says nothing about the macros `error!`, `warn!` and `info!`, apart from errors for which there is no
`error_notify_cmd`. Here a `World` is extended by the messages which have been logged; it moves as before.

Simplifications: messages about the outcome of other commands than `transient_error_if_cmd` are not here, but in
`Model/Reports.lean` and `Model/Eventing.lean`. Errors of
reading from and writing to sockets are not modelled.
-/

namespace Pizauth

/-- `log::Level`, as far as it is used. `error!`, `warn!` and `info!`, e.g. src/server/refresher.rs:130,
src/server/mod.rs:401. -/
inductive Level where
  | error
  | warn
  | info
deriving DecidableEq, Repr

/-- A message and its level, e.g. src/server/refresher.rs:130. -/
structure Msg where
  level : Level
  text : String
deriving DecidableEq, Repr

/-- Is a message logged if the server was started with `-v` given `v` times? src/main.rs:332-338,344-348. -/
def Level.logged (v : Nat) : Level → Bool
  | .error => true
  | .warn => decide (1 ≤ v)
  | .info => decide (2 ≤ v)

/-- Texts of errors which come from libraries and from the operating system, src/server/refresher.rs:258-319,
src/server/http_server.rs:165-201. -/
structure Words where
  /-- of an HTTP request which fails -/
  http : String := ""
  /-- of a failing `transient_error_if_cmd`, src/server/refresher.rs:167-202 -/
  cmd : String := ""
  /-- of anything else -/
  other : String := ""

/-- The reason for a failed refresh, as known before the account is looked at again, src/server/refresher.rs:31-41. -/
inductive Why where
  | plain (s : String)
  /-- the account's name will be put in front -/
  | named (s : String)
deriving DecidableEq, Repr

/-- The argument of `TransitoryError` and `PermanentError`, src/server/refresher.rs:257-320,362-368. -/
def whyFailed (x : Words) : Net → Why
  | .body b =>
    match b.str "error" with
    | some e => .named e
    | none => .plain "Received JSON in unexpected format"
  | .badJson e => .named e
  | .readErr e => .plain e
  | .status code body => .plain (statusReason code body)
  | .transport _ => .plain x.http

/-- src/server/refresher.rs:301-303,314-316. -/
def Why.text (name : String) : Why → String
  | .plain s => s
  | .named s => "Refreshing " ++ name ++ " failed: " ++ s

/-- The text of an `Err` of `redirect_uri` or `request_token`, src/server/request_token.rs:11-60, src/config.rs:547-562. -/
def errText (x : Words) (m : String) : String := if m = "url" then x.other else m

/-- Does `request_token` fail? src/server/request_token.rs:11-63. -/
def requestTokenErr (E : Env) (S : Static) (ls : LockedState) (id : AccountId) (inp : Input) (x : Words) : List Msg :=
  match requestToken E S ls id inp.rndState inp.rndVerifier with
  | .err m => [⟨.warn, errText x m⟩]
  | _ => []

/-- An `Err` of `request`, src/server/mod.rs:79-302 and 400-402. -/
def sayUnix (E : Env) (S : Static) (now : Instant) (wall : SysTime) (ls : LockedState) (buf : Bytes) (inp : Input)
    (x : Words) : List Msg :=
  match parseReq buf with
  | .invalid =>
    let len := (buf.takeWhile (· != colon)).length
    if len = buf.length then
      [⟨.warn, "Syntactically invalid request '" ++ (fromUtf8 buf).getD "<can't represent as UTF-8" ++ "'"⟩]
    else if (fromUtf8 (buf.take len)).isNone || (fromUtf8 (buf.drop (len + 1))).isNone then [⟨.warn, x.other⟩]
    else [⟨.warn, "Invalid command"⟩]
  | .dump =>
    match authDump E ls now wall inp.nonce inp.dumpOrder with
    | .err => [⟨.warn, x.other⟩]
    | _ => []
  | .refresh _ act =>
    match ls.validateActName act with
    | none => []
    | some id =>
      match ls.tokenstate id with
      | some .empty | some (.pending _) => requestTokenErr E S ls id inp x
      | _ => []
  | .showtoken _ act =>
    match ls.validateActName act with
    | none => []
    | some id =>
      match ls.tokenstate id with
      | some .empty => requestTokenErr E S ls id inp x
      | _ => []
  | _ => []

/-- An `Err` of the first half of the HTTP `request`, src/server/http_server.rs:82-85 and 393-395,462-464. -/
def sayHttp (E : Env) (S : Static) (ls : LockedState) (buf : Bytes) (isHttps : Bool) (x : Words) : List Msg :=
  match parseGet E buf isHttps with
  | none => []
  | some uri =>
    match uri.param "state" with
    | none => []
    | some state =>
      match ls.actIdMatchingTokenState state with
      | none => []
      | some id =>
        match ls.account id with
        | none => []
        | some act =>
          match act.redirectUrl E S.httpPort S.httpsPort with
          | .err m => [⟨.warn, errText x m⟩]
          | _ => []

/-- An `Err` of its second half, src/server/http_server.rs:222 and 393-395,462-464. -/
def sayExDone (now : Instant) (ls : LockedState) (c : ExCtx) (b : Body) : List Msg :=
  if !ls.isActIdValid c.id then []
  else
    match b.str "error" with
    | some _ => []
    | none =>
      match b.str "token_type", b.u64 "expires_in", b.str "access_token" with
      | some "Bearer", some expiresIn, some _ =>
        match expiryInstant ls c.id now expiresIn with
        | some none => [⟨.warn, "Can't represent expiry"⟩]
        | _ => []
      | _, _, _ => []

/-- A permanent error, src/server/refresher.rs:76 with 269-275,285-291,298-306,311-318,362-368. -/
def sayRfPerm (ls : LockedState) (c : RfCtx) (why : Why) : List Msg :=
  if ls.isActIdValid c.id then
    match ls.tokenstateReplace c.id .empty with
    | none => []
    | some (id', ls') =>
      match ls'.account id' with
      | none => []
      | some act => [⟨.info, "Permanent refresh error for " ++ c.name ++ ": " ++ why.text act.name⟩]
  else []

/-- src/server/refresher.rs:76 with 334-342. -/
def sayRfStore (ls : LockedState) (c : RfCtx) (expiresIn : Nat) (now : Instant) : List Msg :=
  if ls.isActIdValid c.id then
    match expiryInstant ls c.id now expiresIn with
    | some none => [⟨.info, "Permanent refresh error for " ++ c.name ++ ": " ++ "Can't represent expiry"⟩]
    | _ => []
  else []

/-- A transitory error, src/server/refresher.rs:137-148 with 85-107. -/
def sayRfTransient (ls : LockedState) (c : RfCtx) (why : Why) : List Msg :=
  if ls.isActIdValid c.id then
    match ls.tokenstate c.id with
    | some (.active a) =>
      if (a.fails + 1) % transientErrorRetries = 0 ∧ ls.config.transientErrorIfCmd.isSome then []
      else [⟨.info, "Transitory refresh error for " ++ c.name ++ " : " ++ why.text c.name⟩]
    | _ => []
  else []

/-- What thread `tid` logs in the course of an operation. `why` is the reason for which its refresh has failed,
src/server/refresher.rs:57-165, src/server/http_server.rs:38-278, src/server/mod.rs:398-403. -/
def sayOp (E : Env) (S : Static) (now : Instant) (wall : SysTime) (ls : LockedState) (op : Op) (inp : Input) (x : Words)
    (why : Why) : List Msg :=
  match op with
  | .unix buf => sayUnix E S now wall ls buf inp x
  | .http buf isHttps => sayHttp E S ls buf isHttps x
  | .exDone c b => sayExDone now ls c b
  -- src/server/notifier.rs:167
  | .notifyError act msg =>
    match ls.config.errorNotifyCmd with
    | some _ => []
    | none => [⟨.error, act ++ ": " ++ msg⟩]
  | .rfPerm c => sayRfPerm ls c why
  | .rfStore c _ expiresIn _ t => sayRfStore ls c expiresIn t
  | .rfTransient c => sayRfTransient ls c why
  -- src/server/refresher.rs:130
  | .rfCmdErr _ act => [⟨.info, "Permanent refresh error for " ++ act ++ " : " ++ why.text act⟩]
  | _ => []

/-- What a refresh thread remembers after an operation, src/server/refresher.rs:31-41,57-165. -/
def whyOp (op : Op) (inp : Input) (x : Words) (why : Why) : Why :=
  match op with
  | .rfAwait _ => whyFailed x inp.net
  | .rfCmdWait _ _ => if inp.cmdOk then why else .plain x.cmd
  | _ => why

/-- A process, and what it has logged (newest first, with the thread). `Model/World.lean` says what the process is,
src/server/mod.rs:324-406. -/
structure Logged where
  w : World
  why : Nat → Why
  said : List (Nat × Msg)

namespace Logged

/-- What is logged during an action, src/server/refresher.rs:57-165, src/server/http_server.rs:38-278,
src/server/mod.rs:398-403. -/
def say (E : Env) (x : Words) (g : Logged) : Action → List (Nat × Msg)
  | .run tid inp =>
    match g.w.threads tid with
    | [] => []
    | op :: _ => (sayOp E g.w.st g.w.now g.w.wall g.w.ls op inp x (g.why tid)).map fun m => (tid, m)
  | _ => []

/-- The reasons after an action, src/server/refresher.rs:57-165. -/
def whyAfter (x : Words) (g : Logged) : Action → Nat → Why
  | .run tid inp =>
    match g.w.threads tid with
    | [] => g.why
    | op :: _ => fun i => if i = tid then whyOp op inp x (g.why tid) else g.why i
  | _ => g.why

/-- One action, src/server/mod.rs:324-406. -/
def step (E : Env) (g : Logged) (a : Action) (x : Words) : Option Logged :=
  (g.w.step E a).map fun w' => ⟨w', g.whyAfter x a, (g.say E x a).reverse ++ g.said⟩

/-- A sequence of actions, src/server/mod.rs:324-406. -/
def run (E : Env) (g : Logged) : List (Action × Words) → Option Logged
  | [] => some g
  | (a, x) :: r =>
    match g.step E a x with
    | none => none
    | some g' => g'.run E r

/-- The process after some actions, src/server/mod.rs:324-406. -/
inductive Reach (E : Env) : Logged → Prop where
  | init {w : World} {why : Nat → Why} : IsInit E w → Reach E ⟨w, why, []⟩
  | step {g g' : Logged} (a : Action) (x : Words) : Reach E g → g.step E a x = some g' → Reach E g'

end Logged

end Pizauth

import Verif.Model.Bincode
import Verif.Model.Base64
import Verif.Model.Net
import Verif.Model.Unix
import Verif.Model.Http

/-!
# The daemon's threads, one critical section at a time

A thread is the list of the atomic operations it still has to do. `exec` performs one operation; it sees the
clocks, the state behind the global lock, and (through `Input`) everything chosen by the outside world. The
granularity is that of the code: an operation is either one critical section of the global lock
(`ct_lock` … `drop(ct_lk)`), or one critical section of a condition variable's lock, or one interaction with the
outside world.
-/

namespace Pizauth

/-- `enum TokenEvent`, src/server/eventer.rs:20-25. -/
inductive TokenEvent where
  | invalidated
  | new
  | refresh
  | revoked
deriving DecidableEq, Repr

/-- `impl Display for TokenEvent`, src/server/eventer.rs:27-36 (the value of `PIZAUTH_EVENT`). -/
def TokenEvent.text : TokenEvent → String
  | .invalidated => "token_invalidated"
  | .new => "token_new"
  | .refresh => "token_refreshed"
  | .revoked => "token_revoked"

/-- Local variables of the HTTP thread during the code exchange, src/server/http_server.rs:122-143. -/
structure ExCtx where
  id : AccountId
  tokenUri : String
  form : List (String × String)
deriving DecidableEq, Repr

/-- Local variables of a refresh thread, src/server/refresher.rs:70-71,217-249. -/
structure RfCtx where
  id : AccountId
  name : String
  tokenUri : String
  form : List (String × String)
  refreshToken : String
deriving DecidableEq, Repr

/-- An atomic operation of a thread. Its constructors say where in the source they are (src/server/*.rs). -/
inductive Op where
  /-- handle one request on the Unix socket, up to the end of its (only) critical section -/
  | unix (buf : Bytes)
  /-- `update_conf` with a freshly parsed configuration -/
  | install (c : Config)
  /-- write the answer -/
  | reply (b : Bytes)
  /-- close the connection -/
  | close
  /-- `refresher.notify_changes()` -/
  | wakeRefresher
  /-- `notifier.notify_changes()` -/
  | wakeNotifier
  /-- first half of `eventer.token_event` -/
  | pushEvent (act : String) (e : TokenEvent)
  /-- second half of `eventer.token_event` -/
  | wakeEventer
  /-- `notifier.notify_error` -/
  | notifyError (act msg : String)
  /-- handle an HTTP request, first half -/
  | http (buf : Bytes) (isHttps : Bool)
  /-- write the HTTP answer and close -/
  | httpAnswer (b : Bytes)
  /-- send attempt number `k` (from 0) of the code exchange -/
  | exSend (c : ExCtx) (k : Nat)
  /-- wait for its outcome -/
  | exAwait (c : ExCtx) (k : Nat)
  /-- `thread::sleep` after a failed attempt -/
  | exSleep (c : ExCtx) (k : Nat) (wake : Instant)
  /-- use the token server's answer -/
  | exDone (c : ExCtx) (b : Body)
  /-- `fail` -/
  | fail (id : AccountId) (msg : String)
  /-- first critical section of a refresh thread -/
  | rfStart (id : AccountId)
  | rfSend (c : RfCtx)
  | rfAwait (c : RfCtx)
  /-- permanent error -/
  | rfPerm (c : RfCtx)
  /-- `let now = Instant::now()` -/
  | rfNow (c : RfCtx) (tok : String) (expiresIn : Nat) (rt : Option String)
  /-- store the refreshed token -/
  | rfStore (c : RfCtx) (tok : String) (expiresIn : Nat) (rt : Option String) (now : Instant)
  /-- transitory error -/
  | rfTransient (c : RfCtx)
  /-- run `transient_error_if_cmd` -/
  | rfCmd (id : AccountId) (act cmd : String)
  | rfCmdWait (id : AccountId) (act : String)
  /-- the command succeeded -/
  | rfCmdOk (id : AccountId)
  /-- the command failed -/
  | rfCmdErr (id : AccountId) (act : String)
deriving Repr

/-- What the outside world can observe (or does). Observations are labelled with the thread which causes them,
where there can be several, src/server/mod.rs:79-302, src/server/http_server.rs:38-278,
src/server/refresher.rs:211-372. -/
inductive Obs where
  /-- a client connected to the Unix socket and sent these bytes -/
  | request (buf : Bytes)
  /-- bytes written to the client -/
  | reply (b : Bytes)
  /-- the connection to the client was closed -/
  | closed
  /-- an HTTP(S) client sent these bytes; served by thread `tid` -/
  | httpReq (tid : Nat) (buf : Bytes) (isHttps : Bool)
  /-- bytes written to the HTTP client -/
  | httpAnswer (tid : Nat) (b : Bytes)
  /-- an HTTP POST to a token server -/
  | post (tid : Nat) (uri : String) (form : List (String × String))
  /-- its outcome -/
  | resp (tid : Nat) (uri : String) (form : List (String × String)) (net : Net)
  /-- `auth_notify_cmd` run with `PIZAUTH_ACCOUNT` and `PIZAUTH_URL` -/
  | authCmd (cmd act url : String)
  /-- `error_notify_cmd` run with `PIZAUTH_ACCOUNT` and `PIZAUTH_MSG` -/
  | errorCmd (tid : Nat) (cmd act msg : String)
  /-- the error is logged since there is no `error_notify_cmd` -/
  | errorLog (tid : Nat) (act msg : String)
  /-- a token event is queued -/
  | event (tid : Nat) (act : String) (e : TokenEvent)
  /-- `token_event_cmd` started with `PIZAUTH_ACCOUNT` and `PIZAUTH_EVENT` -/
  | eventCmd (cmd act : String) (e : TokenEvent)
  /-- that command has ended (or was killed) -/
  | eventCmdEnd
  /-- `transient_error_if_cmd` started with `PIZAUTH_ACCOUNT` -/
  | transientCmd (tid : Nat) (cmd act : String)
  /-- that command has ended: did it succeed? -/
  | transientCmdEnd (tid : Nat) (ok : Bool)
  /-- the configuration was replaced -/
  | reloaded (c : Config)
  /-- token states were restored from these (decrypted) bytes -/
  | restored (plain : Bytes)
deriving DecidableEq, Repr

/-- Immutable parts of `AuthenticatorState`, src/server/state.rs:44-58. -/
structure Static where
  httpPort : Option Nat
  httpsPort : Option Nat
  httpsPubKey : Option String
deriving DecidableEq, Repr, Inhabited

/-- Everything the outside world chooses during one operation. An operation looks only at the fields it needs,
src/server/mod.rs:79-302, src/server/http_server.rs:38-278, src/server/refresher.rs:211-372. -/
structure Input where
  /-- 8 random bytes (the OAuth state) -/
  rndState : Vector UInt8 8 := Vector.replicate 8 0
  /-- 64 random bytes (the PKCE verifier) -/
  rndVerifier : Vector UInt8 64 := Vector.replicate 64 0
  /-- result of `Config::from_path` -/
  conf : Except String Config := .error ""
  /-- 12 random bytes (the dump's nonce) -/
  nonce : Vector UInt8 12 := Vector.replicate 12 0
  /-- iteration order of the `HashMap` in a dump -/
  dumpOrder : List (String × (AccountDump × TokenStateDump)) := []
  /-- drain order of the `HashMap` in a restore -/
  drainOrder : List (String × TokenState) := []
  /-- outcome of a POST -/
  net : Net := .transport .io
  /-- did `transient_error_if_cmd` succeed? -/
  cmdOk : Bool := true

/-- Effect of an operation, src/server/mod.rs:79-302. -/
structure Eff where
  ls : LockedState
  /-- what the thread does next (before the rest of its list) -/
  next : List Op := []
  /-- new threads, each given by its first operation -/
  spawn : List Op := []
  obs : List Obs := []
  wakeRef : Bool := false
  wakeNot : Bool := false
  wakeEv : Bool := false
  push : List (String × TokenEvent) := []
  term : Bool := false

/-- Outcome of an operation, src/server/mod.rs:79-302. -/
inductive Out where
  | panic
  /-- cannot be performed (now, or with this input) -/
  | disabled
  | ok (e : Eff)

/-- `(none: panic)`, src/server/state.rs:325-405. -/
def Out.ofOption (o : Option Eff) : Out :=
  match o with
  | none => .panic
  | some e => .ok e

/-- `instant_fmt`, src/server/mod.rs:306-322 (`none`: panic in chrono). Simplification: one reading of each
clock. -/
def instantFmt (E : Env) (now : Instant) (wall : SysTime) (i : Instant) : Option String :=
  if i < now then
    match checkedDurationSince now i with
    | some d =>
      match checkedSub wall d with
      | some st => E.rfc2822 st
      | none => some "<unknown time>"
    | none => some "<unknown time>"
  else
    match checkedDurationSince i now with
    | some d =>
      match checkedAdd wall d with
      | some st => E.rfc2822 st
      | none => some "<unknown time>"
    | none => some "<unknown time>"

/-- `expiry_instant`, src/server/mod.rs:65-77. Outer `none`: panic; inner `none`: `Err`. -/
def expiryInstant (ls : LockedState) (id : AccountId) (refreshedAt : Instant) (expiresIn : Nat) :
    Option (Option Instant) :=
  match checkedAdd refreshedAt (secs expiresIn) with
  | some t => some (some t)
  | none =>
    match ls.account id with
    | none => none
    | some act => some (checkedAdd refreshedAt (act.effRefreshAtLeast ls.config))

/-- The query parameters at src/server/request_token.rs:34-52. -/
def authParams (act : Account) (challenge redirect state : String) : List (String × String) :=
  [("access_type", "offline"),
   ("code_challenge", challenge),
   ("code_challenge_method", "S256"),
   ("client_id", act.clientId),
   ("redirect_uri", redirect),
   ("response_type", "code"),
   ("state", state)]
  ++ (if act.scopes.isEmpty then [] else [("scope", " ".intercalate act.scopes)])
  ++ act.authUriFields

/-- The PKCE code challenge of a verifier, src/server/request_token.rs:30-32. -/
def codeChallenge (E : Env) (verifier : String) : String := b64 (E.sha256 (utf8 verifier))

/-- `request_token` up to `drop(ct_lk)`, src/server/request_token.rs:11-63: `.panic`, `.err` (state unchanged), or
the URL and the new state. -/
def requestToken (E : Env) (S : Static) (ls : LockedState) (id : AccountId)
    (rndState : Vector UInt8 8) (rndVerifier : Vector UInt8 64) : Res (Url × LockedState) :=
  match ls.tokenstate id with
  | none | some (.active _) => .panic
  | some .empty | some (.pending _) =>
    match ls.account id with
    | none => .panic
    | some act =>
      let state := b64 rndState.toList
      let codeVerifier := b64 rndVerifier.toList
      match act.redirectUrl E S.httpPort S.httpsPort with
      | .panic => .panic
      | .err m => .err m
      | .ok redirect =>
        match E.parseWithParams act.authUri
            (authParams act (codeChallenge E codeVerifier) (E.renderUrl redirect) state) with
        | none => .err "url"
        | some url =>
          match ls.tokenstateReplace id
              (.pending { codeVerifier := codeVerifier, lastNotification := none, state := state,
                          url := url }) with
          | none => .panic
          | some (_, ls') => .ok (url, ls')

/-- `format!("pending:{url}")` or `"pending:"`, src/server/mod.rs:150-154,208-219. -/
def pendingReply (E : Env) (withUrl : Bool) (url : Url) : Bytes :=
  if withUrl then utf8 ("pending:" ++ E.renderUrl url) else utf8 "pending:"

/-- `error:No account '…'`, src/server/mod.rs:143,188,201. -/
def noAccountReply (act : String) : Bytes := utf8 ("error:No account '" ++ act ++ "'")

/-- The common part of `refresh` and `showtoken` which starts an authorisation, src/server/mod.rs:149-154,207-212. -/
def startAuth (E : Env) (S : Static) (ls : LockedState) (id : AccountId) (withUrl : Bool) (inp : Input) : Out :=
  match requestToken E S ls id inp.rndState inp.rndVerifier with
  | .panic => .panic
  | .err _ => .ok { ls := ls }
  | .ok (url, ls') =>
    .ok { ls := ls', next := [.wakeNotifier, .reply (pendingReply E withUrl url)] }

/-- The description of a token state in `status`, src/server/mod.rs:254-288 (`none`: panic). -/
def statusText (E : Env) (now : Instant) (wall : SysTime) (ts : TokenState) : Option String :=
  match ts with
  | .empty => some "No access token"
  | .pending p =>
    match p.lastNotification with
    | some i => (instantFmt E now wall i).map fun s =>
        "Access token pending authentication (last notification " ++ s ++ ")"
    | none => some "Access token pending authentication"
  | .active a =>
    if a.expiry > now then
      match instantFmt E now wall a.obtained, instantFmt E now wall a.expiry with
      | some o, some e => some ("Active access token (obtained " ++ o ++ "; expires " ++ e ++ ")")
      | _, _ => none
    else
      match a.lastAttempt with
      | some i => (instantFmt E now wall i).map fun s =>
          "Access token expired (last refresh attempt " ++ s ++ ")"
      | none => some "Access token expired (refresh not yet attempted)"

/-- Apply a function that may panic to every element, src/server/mod.rs:252-290. -/
def optAll {α β : Type} (f : α → Option β) : List α → Option (List β)
  | [] => some []
  | a :: r =>
    match f a, optAll f r with
    | some x, some l => some (x :: l)
    | _, _ => none

/-- One line of `status`, src/server/mod.rs:253-289 (`none`: panic). -/
def statusLine (E : Env) (now : Instant) (wall : SysTime) (ls : LockedState) (id : AccountId) :
    Option String :=
  match ls.account id, ls.tokenstate id with
  | some act, some ts => (statusText E now wall ts).map fun s => act.name ++ ": " ++ s
  | _, _ => none

/-- Insertion into a sorted list, src/server/mod.rs:291. -/
def insertSorted (s : String) : List String → List String
  | [] => [s]
  | x :: r => if s ≤ x then s :: x :: r else x :: insertSorted s r

/-- `acts.sort()` (any sorting algorithm gives this result), src/server/mod.rs:291. -/
def sortStrings : List String → List String
  | [] => []
  | x :: r => insertSorted x (sortStrings r)

/-- The answer to `status`, src/server/mod.rs:249-297 (`none`: panic). -/
def statusReply (E : Env) (now : Instant) (wall : SysTime) (ls : LockedState) : Option Bytes :=
  (optAll (statusLine E now wall ls) ls.actIds).map fun acts =>
    if acts.isEmpty then utf8 "error:No accounts configured"
    else utf8 ("ok:" ++ "\n".intercalate (sortStrings acts))

/-- A port in the answer to `info`, src/server/mod.rs:105-118. -/
def portText (p : Option Nat) : String :=
  match p with
  | some x => toString x
  | none => "none"

/-- The answer to `info`, src/server/mod.rs:103-124 (serde_json prints objects with sorted keys; none of the values
needs escaping). -/
def infoReply (S : Static) : Bytes :=
  utf8 ("{\"http_port\":\"" ++ portText S.httpPort ++ "\",\"https_port\":\"" ++ portText S.httpsPort ++ "\"" ++
    (match S.httpsPubKey with
     | some x => ",\"https_pub_key\":\"" ++ x ++ "\""
     | none => "") ++ "}")

/-- `request` on the Unix socket, src/server/mod.rs:98-301, up to the end of its critical section. The rest (waking
threads, queueing events, writing the answer) is in `next`. -/
def execUnix (E : Env) (S : Static) (now : Instant) (wall : SysTime) (ls : LockedState) (r : Req)
    (inp : Input) : Out :=
  match r with
  | .dump =>
    match authDump E ls now wall inp.nonce inp.dumpOrder with
    | .panic => .panic
    | .disabled => .disabled
    | .err => .ok { ls := ls }
    | .ok b => .ok { ls := ls, next := [.reply b] }
  | .info => .ok { ls := ls, next := [.reply (infoReply S)] }
  | .reload =>
    match inp.conf with
    | .ok c =>
      if c.Ok E then
        .ok { ls := ls, next := [.install c, .wakeNotifier, .wakeRefresher, .reply (utf8 "ok:")] }
      else .disabled
    | .error e => .ok { ls := ls, next := [.reply (utf8 ("error:" ++ e))] }
  | .refresh withUrl act =>
    match ls.validateActName act with
    | none => .ok { ls := ls, next := [.reply (noAccountReply act)] }
    | some id =>
      match ls.tokenstate id with
      | none => .panic
      | some .empty | some (.pending _) => startAuth E S ls id withUrl inp
      | some (.active _) =>
        .ok { ls := ls, spawn := [.rfStart id], next := [.reply (utf8 "scheduled:")] }
  | .restore d =>
    if d.length < nonceLen then .ok { ls := ls, next := [.reply (utf8 "error:Input too short")] }
    else
      match E.decrypt (d.take nonceLen) (d.drop nonceLen) with
      | none => .ok { ls := ls, next := [.reply (utf8 "error:Restoring dump failed")] }
      | some plain =>
        let next := [.wakeNotifier, .wakeRefresher, .reply (utf8 "ok:")]
        match ls.restore now wall plain inp.drainOrder with
        | .panic => .panic
        | .disabled => .disabled
        | .err => .ok { ls := ls, next := next }
        | .ok ls' => .ok { ls := ls', obs := [.restored plain], next := next }
  | .revoke act =>
    match ls.validateActName act with
    | none => .ok { ls := ls, next := [.reply (noAccountReply act)] }
    | some id =>
      match ls.tokenstateReplace id .empty with
      | none => .panic
      | some (_, ls') =>
        .ok { ls := ls', next := [.pushEvent act .revoked, .wakeEventer, .reply (utf8 "ok:")] }
  | .showtoken withUrl act =>
    match ls.validateActName act with
    | none => .ok { ls := ls, next := [.reply (noAccountReply act)] }
    | some id =>
      match ls.tokenstate id with
      | none => .panic
      | some .empty => startAuth E S ls id withUrl inp
      | some (.pending p) => .ok { ls := ls, next := [.reply (pendingReply E withUrl p.url)] }
      | some (.active a) =>
        if a.expiry > now then
          .ok { ls := ls, next := [.reply (utf8 ("access_token:" ++ a.accessToken))] }
        else if a.ongoing then
          .ok { ls := ls, next := [.reply (utf8
            "error:Access token has expired. Refreshing is in progress but has not yet succeeded")] }
        else
          .ok { ls := ls, spawn := [.rfStart id], next := [.reply (utf8
            "error:Access token has expired. Refreshing initiated")] }
  | .shutdown => .ok { ls := ls, term := true }
  | .status =>
    match statusReply E now wall ls with
    | none => .panic
    | some b => .ok { ls := ls, next := [.reply b] }
  | .unknown cmd => .ok { ls := ls, next := [.reply (utf8 ("error:Unknown command '" ++ cmd ++ "'"))] }
  | .invalid => .ok { ls := ls }

/-- `uri.query_pairs().find(|(k, _)| k == key)`, src/server/http_server.rs:60,96,111. -/
def Url.param (u : Url) (key : String) : Option String := u.query.lookup key

/-- The form sent to the token server for a code, src/server/http_server.rs:133-143. -/
def codeForm (act : Account) (code verifier redirect : String) : List (String × String) :=
  [("code", code), ("client_id", act.clientId), ("code_verifier", verifier), ("redirect_uri", redirect),
   ("grant_type", "authorization_code")]
  ++ (match act.clientSecret with
      | some x => [("client_secret", x)]
      | none => [])

/-- Text of the answers at src/server/http_server.rs:75,151. -/
def msgNoPending : String := "No pending token matches request state: request a fresh token"
/-- The page after a login, src/server/http_server.rs:149-152. -/
def msgProcessing : String := "pizauth processing authentication: you can safely close this page."

/-- `Authentication for … failed: …`, src/server/http_server.rs:99-103,263-266. -/
def authFailedMsg (act reason : String) : String := "Authentication for " ++ act ++ " failed: " ++ reason

/-- First half of the HTTP `request`, src/server/http_server.rs:48-152. -/
def execHttp (E : Env) (S : Static) (ls : LockedState) (buf : Bytes) (isHttps : Bool) : Out :=
  match parseGet E buf isHttps with
  | none => .ok { ls := ls, next := [.httpAnswer http400] }
  | some uri =>
    match uri.param "state" with
    | none => .ok { ls := ls, next := [.httpAnswer http404] }
    | some state =>
      match ls.actIdMatchingTokenState state with
      | none => .ok { ls := ls, next := [.httpAnswer (http200 msgNoPending)] }
      | some id =>
        match ls.account id with
        | none => .panic
        | some act =>
          match act.redirectUrl E S.httpPort S.httpsPort with
          | .panic => .panic
          | .err _ => .ok { ls := ls }
          | .ok expected =>
            if expected.scheme ≠ uri.scheme ∨ expected.host ≠ uri.host ∨ expected.port ≠ uri.port then
              .ok { ls := ls, next := [.httpAnswer http404] }
            else
              match uri.param "error" with
              | some reason =>
                match ls.tokenstateReplace id .empty with
                | none => .panic
                | some (id', ls') =>
                  match ls'.account id' with
                  | none => .panic
                  | some act' =>
                    .ok { ls := ls', next := [.httpAnswer http400,
                      .notifyError act'.name (authFailedMsg act'.name reason)] }
              | none =>
                match uri.param "code" with
                | none => .ok { ls := ls, next := [.httpAnswer http400] }
                | some code =>
                  match ls.tokenstate id with
                  | some (.pending p) =>
                    .ok { ls := ls, next := [.httpAnswer (http200 msgProcessing),
                      .exSend ⟨id, act.tokenUri,
                        codeForm act code p.codeVerifier (E.renderUrl expected)⟩ 0] }
                  | _ => .panic

/-- `RETRY_POST`, src/server/http_server.rs:28. -/
def retryPost : Nat := 10
/-- `RETRY_DELAY`, src/server/http_server.rs:30. -/
def retryDelay : Dur := secs 6

/-- The reason given for a non-success status, src/server/http_server.rs:176-179. -/
def statusReason (code : Nat) (body : Option String) : String :=
  match body with
  | some r => toString code ++ ": " ++ r
  | none => toString code

/-- Outcome of one POST of the code exchange, src/server/http_server.rs:159-186,195-201. -/
def execExAwait (now : Instant) (ls : LockedState) (tid : Nat) (c : ExCtx) (k : Nat) (net : Net) : Out :=
  let obs := [Obs.resp tid c.tokenUri c.form net]
  match net with
  | .body b => .ok { ls := ls, obs := obs, next := [.exDone c b] }
  | .badJson e => .ok { ls := ls, obs := obs, next := [.fail c.id ("Invalid JSON: " ++ e)] }
  | .readErr e => .ok { ls := ls, obs := obs, next := [.fail c.id e] }
  | .status code body => .ok { ls := ls, obs := obs, next := [.fail c.id (statusReason code body)] }
  | .transport _ => .ok { ls := ls, obs := obs, next := [.exSleep c k (now + (retryDelay : Int))] }

/-- Continue after the sleep, src/server/http_server.rs:158,185-193. -/
def execExSleep (now : Instant) (ls : LockedState) (c : ExCtx) (k : Nat) (wake : Instant) : Out :=
  if now < wake then .disabled
  else if k + 1 < retryPost then .ok { ls := ls, next := [.exSend c (k + 1)] }
  else .ok { ls := ls, next := [.fail c.id ("couldn't connect to " ++ c.tokenUri)] }

/-- Use of the token server's answer, src/server/http_server.rs:203-245. -/
def execExDone (now : Instant) (ls : LockedState) (c : ExCtx) (b : Body) : Out :=
  if !ls.isActIdValid c.id then .ok { ls := ls }
  else
    match b.str "error" with
    | some e => .ok { ls := ls, next := [.fail c.id e] }
    | none =>
      match b.str "token_type", b.u64 "expires_in", b.str "access_token" with
      | some "Bearer", some expiresIn, some tok =>
        match expiryInstant ls c.id now expiresIn with
        | none => .panic
        | some none => .ok { ls := ls }
        | some (some expiry) =>
          match ls.account c.id with
          | none => .panic
          | some act =>
            match ls.tokenstateReplace c.id
                (.active { accessToken := tok, obtained := now, expiry := expiry,
                           refreshToken := b.str "refresh_token", ongoing := false, fails := 0,
                           lastAttempt := none }) with
            | none => .panic
            | some (_, ls') =>
              .ok { ls := ls', next := [.wakeRefresher, .pushEvent act.name .new, .wakeEventer] }
      | _, _, _ => .ok { ls := ls, next := [.fail c.id "invalid response received"] }

/-- `fail`, src/server/http_server.rs:251-278. -/
def execFail (ls : LockedState) (id : AccountId) (msg : String) : Out :=
  if ls.isActIdValid id then
    match ls.tokenstate id with
    | none => .panic
    | some ts =>
      match ls.tokenstateReplace id .empty with
      | none => .panic
      | some (id', ls') =>
        match ls'.account id' with
        | none => .panic
        | some act =>
          .ok { ls := ls', next := .notifyError act.name (authFailedMsg act.name msg) ::
            (match ts with
             | .active _ => [.pushEvent act.name .invalidated, .wakeEventer]
             | _ => []) }
  else .ok { ls := ls }

/-- `notify_error`, src/server/notifier.rs:136-170. -/
def execNotifyError (ls : LockedState) (tid : Nat) (act msg : String) : Out :=
  match ls.config.errorNotifyCmd with
  | some cmd => .ok { ls := ls, obs := [.errorCmd tid cmd act msg] }
  | none => .ok { ls := ls, obs := [.errorLog tid act msg] }

/-- The form sent to the token server for a refresh, src/server/refresher.rs:241-249. -/
def refreshForm (act : Account) (refreshToken : String) : List (String × String) :=
  [("client_id", act.clientId), ("refresh_token", refreshToken), ("grant_type", "refresh_token")]
  ++ (match act.clientSecret with
      | some x => [("client_secret", x)]
      | none => [])

/-- First critical section of a refresh thread: the closure of `sched_refresh` up to `inner_refresh`'s
`drop(ct_lk)`, src/server/refresher.rs:59-72,217-251. -/
def execRfStart (now : Instant) (ls : LockedState) (id : AccountId) : Out :=
  if ls.isActIdValid id then
    match ls.tokenstate id with
    | none => .panic
    | some (.active a) =>
      if a.ongoing then .ok { ls := ls }
      else
        match ls.tokenstateReplace id (.active { a with ongoing := true }) with
        | none => .panic
        | some (id1, ls1) =>
          match ls1.account id1, ls1.tokenstate id1 with
          | some act1, some (.active a1) =>
            match a1.refreshToken with
            | some r =>
              match ls1.tokenstateReplace id1 (.active { a1 with lastAttempt := some now }) with
              | none => .panic
              | some (id2, ls2) =>
                match ls2.account id2 with
                | none => .panic
                | some act =>
                  .ok { ls := ls2,
                        next := [.rfSend ⟨id2, act1.name, act.tokenUri, refreshForm act r, r⟩] }
            | none =>
              match ls1.tokenstateReplace id1 .empty with
              | none => .panic
              | some (_, ls2) => .ok { ls := ls2 }
          | _, _ => .panic
    | some _ => .ok { ls := ls }
  else .ok { ls := ls }

/-- The refresh token to use from now on, src/server/refresher.rs:328-332. -/
def rotateRefreshToken (b : Body) (old : String) : Option String :=
  match b.get "refresh_token" with
  | none => some old
  | some (.str x) => some x
  | some _ => none

/-- Interpretation of the token server's answer to a refresh, src/server/refresher.rs:295-332,361. -/
def afterRefreshBody (c : RfCtx) (b : Body) : Op :=
  match b.str "error" with
  | some _ => .rfPerm c
  | none =>
    match b.str "access_token", b.u64 "expires_in", b.str "token_type" with
    | some tok, some expiresIn, some "Bearer" => .rfNow c tok expiresIn (rotateRefreshToken b c.refreshToken)
    | _, _, _ => .rfPerm c

/-- Outcome of the POST of a refresh, src/server/refresher.rs:252-320. -/
def execRfAwait (ls : LockedState) (tid : Nat) (c : RfCtx) (net : Net) : Out :=
  .ok { ls := ls, obs := [.resp tid c.tokenUri c.form net],
        next := [match net with
          | .body b => afterRefreshBody c b
          | .badJson _ => .rfPerm c
          | .readErr _ => .rfTransient c
          | .status _ _ => .rfPerm c
          | .transport .connectionFailed => .rfTransient c
          | .transport .dns => .rfTransient c
          | .transport .io => .rfTransient c
          | .transport .other => .rfPerm c] }

/-- A permanent error, src/server/refresher.rs:269-275,285-291,298-306,311-318,362-368 and 75-80. -/
def execRfPerm (ls : LockedState) (c : RfCtx) : Out :=
  if ls.isActIdValid c.id then
    match ls.tokenstateReplace c.id .empty with
    | none => .panic
    | some (_, ls') => .ok { ls := ls', next := [.pushEvent c.name .invalidated, .wakeEventer] }
  else .ok { ls := ls }

/-- Storing a refreshed token, src/server/refresher.rs:334-359 and 75-84. -/
def execRfStore (ls : LockedState) (c : RfCtx) (tok : String) (expiresIn : Nat) (rt : Option String)
    (now : Instant) : Out :=
  if ls.isActIdValid c.id then
    match expiryInstant ls c.id now expiresIn with
    | none => .panic
    | some none =>
      match ls.tokenstateReplace c.id .empty with
      | none => .panic
      | some (_, ls') => .ok { ls := ls', next := [.pushEvent c.name .invalidated, .wakeEventer] }
    | some (some expiry) =>
      match ls.tokenstateReplace c.id
          (.active { accessToken := tok, obtained := now, expiry := expiry, refreshToken := rt,
                     ongoing := false, fails := 0, lastAttempt := none }) with
      | none => .panic
      | some (_, ls') =>
        .ok { ls := ls', next := [.wakeRefresher, .pushEvent c.name .refresh, .wakeEventer] }
  else .ok { ls := ls }

/-- `TRANSIENT_ERROR_RETRIES`, src/server/refresher.rs:25. -/
def transientErrorRetries : Nat := 6

/-- A transitory error, src/server/refresher.rs:85-107,137-158. -/
def execRfTransient (now : Instant) (ls : LockedState) (c : RfCtx) : Out :=
  if ls.isActIdValid c.id then
    match ls.tokenstate c.id with
    | some (.active a) =>
      match ls.tokenstateReplace c.id
          (.active { a with lastAttempt := some now, fails := a.fails + 1 }) with
      | none => .panic
      | some (id', ls') =>
        let setFalse : Out :=
          match ls'.tokenstateSetOngoingRefresh id' false with
          | none => .panic
          | some (_, ls'') => .ok { ls := ls'', next := [.wakeRefresher] }
        if (a.fails + 1) % transientErrorRetries = 0 then
          match ls'.config.transientErrorIfCmd with
          | some cmd => .ok { ls := ls', next := [.rfCmd id' c.name cmd] }
          | none => setFalse
        else setFalse
    | _ => .panic
  else .ok { ls := ls, next := [.wakeRefresher] }

/-- `transient_error_if_cmd` succeeded, src/server/refresher.rs:112-120,158. -/
def execRfCmdOk (ls : LockedState) (id : AccountId) : Out :=
  if ls.isActIdValid id then
    match ls.tokenstateSetOngoingRefresh id false with
    | none => .panic
    | some (_, ls') => .ok { ls := ls', next := [.wakeRefresher] }
  else .ok { ls := ls, next := [.wakeRefresher] }

/-- `transient_error_if_cmd` failed, src/server/refresher.rs:121-135,158. -/
def execRfCmdErr (ls : LockedState) (id : AccountId) (act : String) : Out :=
  let next := [.pushEvent act .invalidated, .wakeEventer, .wakeRefresher]
  if ls.isActIdValid id then
    match ls.tokenstateReplace id .empty with
    | none => .panic
    | some (_, ls') => .ok { ls := ls', next := next }
  else .ok { ls := ls, next := next }

/-- One atomic operation of thread `tid`, src/server/mod.rs:79-302, src/server/http_server.rs:38-278,
src/server/refresher.rs:57-372, src/server/notifier.rs:136-172. -/
def exec (E : Env) (S : Static) (now : Instant) (wall : SysTime) (ls : LockedState) (tid : Nat) (op : Op)
    (inp : Input) : Out :=
  match op with
  | .unix buf => execUnix E S now wall ls (parseReq buf) inp
  -- src/server/state.rs:97-101
  | .install c =>
    match ls.updateConf c with
    | none => .panic
    | some ls' => .ok { ls := ls', obs := [.reloaded c] }
  | .reply b => .ok { ls := ls, obs := [.reply b] }
  | .close => .ok { ls := ls, obs := [.closed] }
  -- src/server/refresher.rs:435-439
  | .wakeRefresher => .ok { ls := ls, wakeRef := true }
  -- src/server/notifier.rs:116-120
  | .wakeNotifier => .ok { ls := ls, wakeNot := true }
  -- src/server/eventer.rs:116
  | .pushEvent act e => .ok { ls := ls, push := [(act, e)], obs := [.event tid act e] }
  -- src/server/eventer.rs:117-119
  | .wakeEventer => .ok { ls := ls, wakeEv := true }
  | .notifyError act msg => execNotifyError ls tid act msg
  | .http buf isHttps => execHttp E S ls buf isHttps
  | .httpAnswer b => .ok { ls := ls, obs := [.httpAnswer tid b] }
  -- src/server/http_server.rs:159-163
  | .exSend c k => .ok { ls := ls, obs := [.post tid c.tokenUri c.form], next := [.exAwait c k] }
  | .exAwait c k => execExAwait now ls tid c k inp.net
  | .exSleep c k wake => execExSleep now ls c k wake
  | .exDone c b => execExDone now ls c b
  | .fail id msg => execFail ls id msg
  | .rfStart id => execRfStart now ls id
  -- src/server/refresher.rs:252-256
  | .rfSend c => .ok { ls := ls, obs := [.post tid c.tokenUri c.form], next := [.rfAwait c] }
  | .rfAwait c => execRfAwait ls tid c inp.net
  | .rfPerm c => execRfPerm ls c
  -- src/server/refresher.rs:333
  | .rfNow c tok expiresIn rt => .ok { ls := ls, next := [.rfStore c tok expiresIn rt now] }
  | .rfStore c tok expiresIn rt t => execRfStore ls c tok expiresIn rt t
  | .rfTransient c => execRfTransient now ls c
  -- src/server/refresher.rs:167-176
  | .rfCmd id act cmd => .ok { ls := ls, obs := [.transientCmd tid cmd act], next := [.rfCmdWait id act] }
  -- src/server/refresher.rs:177-200
  | .rfCmdWait id act =>
    .ok { ls := ls, obs := [.transientCmdEnd tid inp.cmdOk],
          next := [if inp.cmdOk then .rfCmdOk id else .rfCmdErr id act] }
  | .rfCmdOk id => execRfCmdOk ls id
  | .rfCmdErr id act => execRfCmdErr ls id act

end Pizauth

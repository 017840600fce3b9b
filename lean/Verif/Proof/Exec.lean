import Verif.Model.Server
import Verif.Proof.State
import Verif.Spec.Reason

/-!
# What one operation can do, as a relation

`ExecR` lists the possible effects of an operation in a well-formed state, with the accessors of the state replaced
by membership statements. `exec_ok` shows that nothing else can happen; everything that follows is proved by cases
on `ExecR`.
-/

namespace Pizauth
namespace LockedState

variable {ls : LockedState}

/-- Use up one id. -/
def bump (ls : LockedState) : LockedState := { ls with accountCount := ls.accountCount + 1 }

theorem WF.bump (h : ls.WF) : ls.bump.WF :=
  ⟨h.names, h.keys, h.actName, h.ids, fun e he => Nat.lt_succ_of_lt (h.lt e he)⟩

theorem evolves_bump : Evolves ls ls.bump :=
  ⟨Nat.le_succ _, fun h _ => ⟨_, h, SameSec.refl _⟩⟩

theorem WF.put_put (h : ls.WF) {e : Entry} (_he : e ∈ ls.details) (ts1 ts2 : TokenState) :
    (ls.put e.id ts1).put ls.accountCount ts2 = ls.bump.put e.id ts2 := by
  unfold LockedState.put LockedState.bump
  simp only [List.map_map]
  congr 1
  apply List.map_congr_left
  intro x hx
  have := h.lt x hx
  simp only [Function.comp]
  by_cases hc : x.id = e.id
  · simp [hc]
  · have : x.id ≠ ls.accountCount := by omega
    simp [hc, this]

theorem WF.put_account (h : ls.WF) {e : Entry} {a : Account} (he : ls.Has e a) (ts : TokenState) :
    (ls.put e.id ts).account ls.accountCount = some a := by
  have h1 := mem_put_new (ts := ts) he.1 rfl
  exact (h.put e.id ts).account (e := { name := e.name, id := ls.accountCount, ts := ts }) ⟨h1, he.2⟩

theorem WF.put_tokenstate (h : ls.WF) {e : Entry} (he : e ∈ ls.details) (ts : TokenState) :
    (ls.put e.id ts).tokenstate ls.accountCount = some ts :=
  (h.put e.id ts).tokenstate (mem_put_new (ts := ts) he rfl)

theorem WF.put_replace (h : ls.WF) {e : Entry} (he : e ∈ ls.details) (ts ts2 : TokenState) :
    (ls.put e.id ts).tokenstateReplace ls.accountCount ts2 =
      some (ls.accountCount + 1, ls.bump.put e.id ts2) := by
  have := (h.put e.id ts).tokenstateReplace (mem_put_new (ts := ts) he rfl) ts2
  simp only [h.put_put he] at this
  exact this

end LockedState

open LockedState

/-- The token state of a fresh authorisation. -/
def freshPending (url : Url) (inp : Input) : TokenState :=
  .pending { codeVerifier := b64 inp.rndVerifier.toList, lastNotification := none,
             state := b64 inp.rndState.toList, url := url }

/-- A token just obtained. -/
def freshActive (tok : String) (obtained expiry : Instant) (rt : Option String) : TokenState :=
  .active { accessToken := tok, obtained := obtained, expiry := expiry, refreshToken := rt, ongoing := false,
            fails := 0, lastAttempt := none }

/-- `expires_in` seconds after `now`, or `refresh_at_least` after it if that is not representable. -/
def ExpiryAt (ls : LockedState) (a : Account) (now : Instant) (expiresIn : Nat) (x : Option Instant) : Prop :=
  x = match checkedAdd now (secs expiresIn) with
    | some t => some t
    | none => checkedAdd now (a.effRefreshAtLeast ls.config)

/-- The URL of a new authorisation request. -/
def AuthUrl (E : Env) (S : Static) (a : Account) (inp : Input) (url : Url) : Prop :=
  ∃ redirect, a.redirectUrl E S.httpPort S.httpsPort = .ok redirect ∧
    E.parseWithParams a.authUri (authParams a (codeChallenge E (b64 inp.rndVerifier.toList))
      (E.renderUrl redirect) (b64 inp.rndState.toList)) = some url

/-- The possible effects of one operation. -/
inductive ExecR (E : Env) (S : Static) (now : Instant) (wall : SysTime) (ls : LockedState) (tid : Nat) :
    Op → Input → Eff → Prop where
  | dumpOk {buf inp b} : parseReq buf = .dump →
      authDump E ls now wall inp.nonce inp.dumpOrder = .ok b →
      ExecR E S now wall ls tid (.unix buf) inp { ls := ls, next := [.reply b] }
  | dumpErr {buf inp} : parseReq buf = .dump →
      authDump E ls now wall inp.nonce inp.dumpOrder = .err →
      ExecR E S now wall ls tid (.unix buf) inp { ls := ls }
  | info {buf inp} : parseReq buf = .info →
      ExecR E S now wall ls tid (.unix buf) inp { ls := ls, next := [.reply (infoReply S)] }
  | reloadOk {buf inp c} : parseReq buf = .reload → inp.conf = .ok c → c.Ok E →
      ExecR E S now wall ls tid (.unix buf) inp
        { ls := ls, next := [.install c, .wakeNotifier, .wakeRefresher, .reply (utf8 "ok:")] }
  | reloadErr {buf inp m} : parseReq buf = .reload → inp.conf = .error m →
      ExecR E S now wall ls tid (.unix buf) inp { ls := ls, next := [.reply (utf8 ("error:" ++ m))] }
  | noAccount {buf inp n} :
      ((∃ u, parseReq buf = .refresh u n) ∨ parseReq buf = .revoke n ∨ ∃ u, parseReq buf = .showtoken u n) →
      (∀ e ∈ ls.details, e.name ≠ n) →
      ExecR E S now wall ls tid (.unix buf) inp { ls := ls, next := [.reply (noAccountReply n)] }
  | auth {buf inp u e a url} :
      ls.Has e a →
      (parseReq buf = .showtoken u e.name ∧ e.ts = .empty ∨
        parseReq buf = .refresh u e.name ∧ (e.ts = .empty ∨ ∃ p, e.ts = .pending p)) →
      AuthUrl E S a inp url →
      ExecR E S now wall ls tid (.unix buf) inp
        { ls := ls.put e.id (freshPending url inp), next := [.wakeNotifier, .reply (pendingReply E u url)] }
  | authErr {buf inp u e a} :
      ls.Has e a →
      (parseReq buf = .showtoken u e.name ∧ e.ts = .empty ∨
        parseReq buf = .refresh u e.name ∧ (e.ts = .empty ∨ ∃ p, e.ts = .pending p)) →
      (∀ url, ¬ AuthUrl E S a inp url) →
      ExecR E S now wall ls tid (.unix buf) inp { ls := ls }
  | refreshSched {buf inp u e a t} :
      ls.Has e a → parseReq buf = .refresh u e.name → e.ts = .active t →
      ExecR E S now wall ls tid (.unix buf) inp
        { ls := ls, spawn := [.rfStart e.id], next := [.reply (utf8 "scheduled:")] }
  | restoreShort {buf inp d} : parseReq buf = .restore d → d.length < nonceLen →
      ExecR E S now wall ls tid (.unix buf) inp
        { ls := ls, next := [.reply (utf8 "error:Input too short")] }
  | restoreBad {buf inp d} : parseReq buf = .restore d → ¬ d.length < nonceLen →
      E.decrypt (d.take nonceLen) (d.drop nonceLen) = none →
      ExecR E S now wall ls tid (.unix buf) inp
        { ls := ls, next := [.reply (utf8 "error:Restoring dump failed")] }
  | restoreErr {buf inp d plain} : parseReq buf = .restore d → ¬ d.length < nonceLen →
      E.decrypt (d.take nonceLen) (d.drop nonceLen) = some plain →
      ls.restore now wall plain inp.drainOrder = .err →
      ExecR E S now wall ls tid (.unix buf) inp
        { ls := ls, next := [.wakeNotifier, .wakeRefresher, .reply (utf8 "ok:")] }
  | restoreOk {buf inp d plain ls'} : parseReq buf = .restore d → ¬ d.length < nonceLen →
      E.decrypt (d.take nonceLen) (d.drop nonceLen) = some plain →
      ls.restore now wall plain inp.drainOrder = .ok ls' →
      ExecR E S now wall ls tid (.unix buf) inp
        { ls := ls', obs := [.restored plain], next := [.wakeNotifier, .wakeRefresher, .reply (utf8 "ok:")] }
  | revoke {buf inp e a} : ls.Has e a → parseReq buf = .revoke e.name →
      ExecR E S now wall ls tid (.unix buf) inp
        { ls := ls.put e.id .empty,
          next := [.pushEvent e.name .revoked, .wakeEventer, .reply (utf8 "ok:")] }
  | showPending {buf inp u e a p} : ls.Has e a → parseReq buf = .showtoken u e.name → e.ts = .pending p →
      ExecR E S now wall ls tid (.unix buf) inp { ls := ls, next := [.reply (pendingReply E u p.url)] }
  | showTok {buf inp u e a t} : ls.Has e a → parseReq buf = .showtoken u e.name → e.ts = .active t →
      t.expiry > now →
      ExecR E S now wall ls tid (.unix buf) inp
        { ls := ls, next := [.reply (utf8 ("access_token:" ++ t.accessToken))] }
  | showOngoing {buf inp u e a t} : ls.Has e a → parseReq buf = .showtoken u e.name → e.ts = .active t →
      ¬ t.expiry > now → t.ongoing = true →
      ExecR E S now wall ls tid (.unix buf) inp
        { ls := ls, next := [.reply (utf8
          "error:Access token has expired. Refreshing is in progress but has not yet succeeded")] }
  | showExpired {buf inp u e a t} : ls.Has e a → parseReq buf = .showtoken u e.name → e.ts = .active t →
      ¬ t.expiry > now → t.ongoing = false →
      ExecR E S now wall ls tid (.unix buf) inp
        { ls := ls, spawn := [.rfStart e.id], next := [.reply (utf8
          "error:Access token has expired. Refreshing initiated")] }
  | shutdown {buf inp} : parseReq buf = .shutdown →
      ExecR E S now wall ls tid (.unix buf) inp { ls := ls, term := true }
  | status {buf inp b} : parseReq buf = .status → statusReply E now wall ls = some b →
      ExecR E S now wall ls tid (.unix buf) inp { ls := ls, next := [.reply b] }
  | unknown {buf inp c} : parseReq buf = .unknown c →
      ExecR E S now wall ls tid (.unix buf) inp
        { ls := ls, next := [.reply (utf8 ("error:Unknown command '" ++ c ++ "'"))] }
  | invalid {buf inp} : parseReq buf = .invalid →
      ExecR E S now wall ls tid (.unix buf) inp { ls := ls }
  | install {c inp ls'} : ls.updateConf c = some ls' →
      ExecR E S now wall ls tid (.install c) inp { ls := ls', obs := [.reloaded c] }
  | reply {b inp} : ExecR E S now wall ls tid (.reply b) inp { ls := ls, obs := [.reply b] }
  | close {inp} : ExecR E S now wall ls tid .close inp { ls := ls, obs := [.closed] }
  | wakeRefresher {inp} : ExecR E S now wall ls tid .wakeRefresher inp { ls := ls, wakeRef := true }
  | wakeNotifier {inp} : ExecR E S now wall ls tid .wakeNotifier inp { ls := ls, wakeNot := true }
  | pushEvent {act ev inp} : ExecR E S now wall ls tid (.pushEvent act ev) inp
      { ls := ls, push := [(act, ev)], obs := [.event tid act ev] }
  | wakeEventer {inp} : ExecR E S now wall ls tid .wakeEventer inp { ls := ls, wakeEv := true }
  | notifyErrorCmd {act msg inp cmd} : ls.config.errorNotifyCmd = some cmd →
      ExecR E S now wall ls tid (.notifyError act msg) inp { ls := ls, obs := [.errorCmd tid cmd act msg] }
  | notifyErrorLog {act msg inp} : ls.config.errorNotifyCmd = none →
      ExecR E S now wall ls tid (.notifyError act msg) inp { ls := ls, obs := [.errorLog tid act msg] }
  | httpBad {buf sec inp} : parseGet E buf sec = none →
      ExecR E S now wall ls tid (.http buf sec) inp { ls := ls, next := [.httpAnswer http400] }
  | httpNoState {buf sec inp uri} : parseGet E buf sec = some uri → uri.param "state" = none →
      ExecR E S now wall ls tid (.http buf sec) inp { ls := ls, next := [.httpAnswer http404] }
  | httpNoMatch {buf sec inp uri s} : parseGet E buf sec = some uri → uri.param "state" = some s →
      (∀ e ∈ ls.details, ∀ p, e.ts = .pending p → p.state ≠ s) →
      ExecR E S now wall ls tid (.http buf sec) inp
        { ls := ls, next := [.httpAnswer (http200 msgNoPending)] }
  | httpRedirErr {buf sec inp uri s e a p m} : parseGet E buf sec = some uri → uri.param "state" = some s →
      ls.Has e a → e.ts = .pending p → p.state = s →
      a.redirectUrl E S.httpPort S.httpsPort = .err m →
      ExecR E S now wall ls tid (.http buf sec) inp { ls := ls }
  | httpOrigin {buf sec inp uri s e a p x} : parseGet E buf sec = some uri → uri.param "state" = some s →
      ls.Has e a → e.ts = .pending p → p.state = s →
      a.redirectUrl E S.httpPort S.httpsPort = .ok x →
      (x.scheme ≠ uri.scheme ∨ x.host ≠ uri.host ∨ x.port ≠ uri.port) →
      ExecR E S now wall ls tid (.http buf sec) inp { ls := ls, next := [.httpAnswer http404] }
  | httpError {buf sec inp uri s e a p x m} : parseGet E buf sec = some uri → uri.param "state" = some s →
      ls.Has e a → e.ts = .pending p → p.state = s →
      a.redirectUrl E S.httpPort S.httpsPort = .ok x →
      ¬ (x.scheme ≠ uri.scheme ∨ x.host ≠ uri.host ∨ x.port ≠ uri.port) →
      uri.param "error" = some m →
      ExecR E S now wall ls tid (.http buf sec) inp
        { ls := ls.put e.id .empty,
          next := [.httpAnswer http400, .notifyError a.name (authFailedMsg a.name m)] }
  | httpNoCode {buf sec inp uri s e a p x} : parseGet E buf sec = some uri → uri.param "state" = some s →
      ls.Has e a → e.ts = .pending p → p.state = s →
      a.redirectUrl E S.httpPort S.httpsPort = .ok x →
      ¬ (x.scheme ≠ uri.scheme ∨ x.host ≠ uri.host ∨ x.port ≠ uri.port) →
      uri.param "error" = none → uri.param "code" = none →
      ExecR E S now wall ls tid (.http buf sec) inp { ls := ls, next := [.httpAnswer http400] }
  | httpCode {buf sec inp uri s e a p x code} : parseGet E buf sec = some uri →
      uri.param "state" = some s →
      ls.Has e a → e.ts = .pending p → p.state = s →
      a.redirectUrl E S.httpPort S.httpsPort = .ok x →
      ¬ (x.scheme ≠ uri.scheme ∨ x.host ≠ uri.host ∨ x.port ≠ uri.port) →
      uri.param "error" = none → uri.param "code" = some code →
      ExecR E S now wall ls tid (.http buf sec) inp
        { ls := ls, next := [.httpAnswer (http200 msgProcessing),
            .exSend ⟨e.id, a.tokenUri, codeForm a code p.codeVerifier (E.renderUrl x)⟩ 0] }
  | httpAnswer {b inp} : ExecR E S now wall ls tid (.httpAnswer b) inp { ls := ls, obs := [.httpAnswer tid b] }
  | exSend {c k inp} : ExecR E S now wall ls tid (.exSend c k) inp
      { ls := ls, obs := [.post tid c.tokenUri c.form], next := [.exAwait c k] }
  | exAwaitBody {c k inp b} : inp.net = .body b → ExecR E S now wall ls tid (.exAwait c k) inp
      { ls := ls, obs := [.resp tid c.tokenUri c.form (.body b)], next := [.exDone c b] }
  | exAwaitErr {c k inp m} : inp.net.isResponse = true → (∀ b, inp.net ≠ .body b) →
      FailReason c.tokenUri inp.net m →
      ExecR E S now wall ls tid (.exAwait c k) inp
        { ls := ls, obs := [.resp tid c.tokenUri c.form inp.net], next := [.fail c.id m] }
  | exAwaitRetry {c k inp t} : inp.net = .transport t → ExecR E S now wall ls tid (.exAwait c k) inp
      { ls := ls, obs := [.resp tid c.tokenUri c.form (.transport t)],
        next := [.exSleep c k (now + (retryDelay : Int))] }
  | exSleepRetry {c k wake inp} : ¬ now < wake → k + 1 < retryPost →
      ExecR E S now wall ls tid (.exSleep c k wake) inp { ls := ls, next := [.exSend c (k + 1)] }
  | exSleepFail {c k wake inp} : ¬ now < wake → ¬ k + 1 < retryPost →
      ExecR E S now wall ls tid (.exSleep c k wake) inp
        { ls := ls, next := [.fail c.id ("couldn't connect to " ++ c.tokenUri)] }
  | exDoneStale {c b inp} : (∀ e ∈ ls.details, e.id ≠ c.id) →
      ExecR E S now wall ls tid (.exDone c b) inp { ls := ls }
  | exDoneErr {c b inp e a m} : ls.Has e a → e.id = c.id → b.str "error" = some m →
      ExecR E S now wall ls tid (.exDone c b) inp { ls := ls, next := [.fail c.id m] }
  | exDoneInvalid {c b inp e a} : ls.Has e a → e.id = c.id → b.str "error" = none →
      ¬ (b.str "token_type" = some "Bearer" ∧ (b.u64 "expires_in").isSome ∧ (b.str "access_token").isSome) →
      ExecR E S now wall ls tid (.exDone c b) inp
        { ls := ls, next := [.fail c.id "invalid response received"] }
  | exDoneNoExpiry {c b inp e a x tok} : ls.Has e a → e.id = c.id → b.str "error" = none →
      b.str "token_type" = some "Bearer" → b.u64 "expires_in" = some x → b.str "access_token" = some tok →
      ExpiryAt ls a now x none →
      ExecR E S now wall ls tid (.exDone c b) inp { ls := ls }
  | exDoneOk {c b inp e a x tok expiry} : ls.Has e a → e.id = c.id → b.str "error" = none →
      b.str "token_type" = some "Bearer" → b.u64 "expires_in" = some x → b.str "access_token" = some tok →
      ExpiryAt ls a now x (some expiry) →
      ExecR E S now wall ls tid (.exDone c b) inp
        { ls := ls.put e.id (freshActive tok now expiry (b.str "refresh_token")),
          next := [.wakeRefresher, .pushEvent a.name .new, .wakeEventer] }
  | failStale {id m inp} : (∀ e ∈ ls.details, e.id ≠ id) →
      ExecR E S now wall ls tid (.fail id m) inp { ls := ls }
  | failOk {id m inp e a} : ls.Has e a → e.id = id →
      ExecR E S now wall ls tid (.fail id m) inp
        { ls := ls.put e.id .empty,
          next := .notifyError a.name (authFailedMsg a.name m) ::
            (match e.ts with
             | .active _ => [.pushEvent a.name .invalidated, .wakeEventer]
             | _ => []) }
  | rfStartStale {id inp} : (∀ e ∈ ls.details, e.id ≠ id) →
      ExecR E S now wall ls tid (.rfStart id) inp { ls := ls }
  | rfStartNot {id inp e a} : ls.Has e a → e.id = id →
      (e.ts = .empty ∨ (∃ p, e.ts = .pending p) ∨ ∃ t, e.ts = .active t ∧ t.ongoing = true) →
      ExecR E S now wall ls tid (.rfStart id) inp { ls := ls }
  | rfStartOk {id inp e a t r} : ls.Has e a → e.id = id → e.ts = .active t → t.ongoing = false →
      t.refreshToken = some r →
      ExecR E S now wall ls tid (.rfStart id) inp
        { ls := ls.bump.put e.id (.active { t with ongoing := true, lastAttempt := some now }),
          next := [.rfSend ⟨ls.accountCount + 1, a.name, a.tokenUri, refreshForm a r, r⟩] }
  | rfStartNoRt {id inp e a t} : ls.Has e a → e.id = id → e.ts = .active t → t.ongoing = false →
      t.refreshToken = none →
      ExecR E S now wall ls tid (.rfStart id) inp { ls := ls.bump.put e.id .empty }
  | rfSend {c inp} : ExecR E S now wall ls tid (.rfSend c) inp
      { ls := ls, obs := [.post tid c.tokenUri c.form], next := [.rfAwait c] }
  | rfAwaitOk {c inp b tok x} : inp.net = .body b → b.str "error" = none →
      b.str "token_type" = some "Bearer" → b.u64 "expires_in" = some x → b.str "access_token" = some tok →
      ExecR E S now wall ls tid (.rfAwait c) inp
        { ls := ls, obs := [.resp tid c.tokenUri c.form (.body b)],
          next := [.rfNow c tok x (rotateRefreshToken b c.refreshToken)] }
  | rfAwaitPerm {c inp} :
      ((∃ b, inp.net = .body b ∧
          ((b.str "error").isSome ∨ ¬ (b.str "token_type" = some "Bearer" ∧ (b.u64 "expires_in").isSome ∧
            (b.str "access_token").isSome))) ∨
        (∃ m, inp.net = .badJson m) ∨ (∃ code x, inp.net = .status code x) ∨ inp.net = .transport .other) →
      ExecR E S now wall ls tid (.rfAwait c) inp
        { ls := ls, obs := [.resp tid c.tokenUri c.form inp.net], next := [.rfPerm c] }
  | rfAwaitTransient {c inp} :
      ((∃ m, inp.net = .readErr m) ∨ ∃ k, k ≠ .other ∧ inp.net = .transport k) →
      ExecR E S now wall ls tid (.rfAwait c) inp
        { ls := ls, obs := [.resp tid c.tokenUri c.form inp.net], next := [.rfTransient c] }
  | rfPermStale {c inp} : (∀ e ∈ ls.details, e.id ≠ c.id) →
      ExecR E S now wall ls tid (.rfPerm c) inp { ls := ls }
  | rfPermOk {c inp e a} : ls.Has e a → e.id = c.id →
      ExecR E S now wall ls tid (.rfPerm c) inp
        { ls := ls.put e.id .empty, next := [.pushEvent c.name .invalidated, .wakeEventer] }
  | rfNow {c tok x rt inp} : ExecR E S now wall ls tid (.rfNow c tok x rt) inp
      { ls := ls, next := [.rfStore c tok x rt now] }
  | rfStoreStale {c tok x rt t inp} : (∀ e ∈ ls.details, e.id ≠ c.id) →
      ExecR E S now wall ls tid (.rfStore c tok x rt t) inp { ls := ls }
  | rfStoreNoExpiry {c tok x rt t inp e a} : ls.Has e a → e.id = c.id → ExpiryAt ls a t x none →
      ExecR E S now wall ls tid (.rfStore c tok x rt t) inp
        { ls := ls.put e.id .empty, next := [.pushEvent c.name .invalidated, .wakeEventer] }
  | rfStoreOk {c tok x rt t inp e a expiry} : ls.Has e a → e.id = c.id →
      ExpiryAt ls a t x (some expiry) →
      ExecR E S now wall ls tid (.rfStore c tok x rt t) inp
        { ls := ls.put e.id (freshActive tok t expiry rt),
          next := [.wakeRefresher, .pushEvent c.name .refresh, .wakeEventer] }
  | rfTransientStale {c inp} : (∀ e ∈ ls.details, e.id ≠ c.id) →
      ExecR E S now wall ls tid (.rfTransient c) inp { ls := ls, next := [.wakeRefresher] }
  | rfTransientCmd {c inp e a t cmd} : ls.Has e a → e.id = c.id → e.ts = .active t →
      (t.fails + 1) % transientErrorRetries = 0 → ls.config.transientErrorIfCmd = some cmd →
      ExecR E S now wall ls tid (.rfTransient c) inp
        { ls := ls.put e.id (.active { t with lastAttempt := some now, fails := t.fails + 1 }),
          next := [.rfCmd ls.accountCount c.name cmd] }
  | rfTransientKeep {c inp e a t} : ls.Has e a → e.id = c.id → e.ts = .active t →
      ¬ ((t.fails + 1) % transientErrorRetries = 0 ∧ ls.config.transientErrorIfCmd.isSome) →
      ExecR E S now wall ls tid (.rfTransient c) inp
        { ls := ls.bump.put e.id
            (.active { t with ongoing := false, lastAttempt := some now, fails := t.fails + 1 }),
          next := [.wakeRefresher] }
  | rfCmd {id act cmd inp} : ExecR E S now wall ls tid (.rfCmd id act cmd) inp
      { ls := ls, obs := [.transientCmd tid cmd act], next := [.rfCmdWait id act] }
  | rfCmdWaitOk {id act inp} : inp.cmdOk = true → ExecR E S now wall ls tid (.rfCmdWait id act) inp
      { ls := ls, obs := [.transientCmdEnd tid true], next := [.rfCmdOk id] }
  | rfCmdWaitErr {id act inp} : inp.cmdOk = false → ExecR E S now wall ls tid (.rfCmdWait id act) inp
      { ls := ls, obs := [.transientCmdEnd tid false], next := [.rfCmdErr id act] }
  | rfCmdOkStale {id inp} : (∀ e ∈ ls.details, e.id ≠ id) →
      ExecR E S now wall ls tid (.rfCmdOk id) inp { ls := ls, next := [.wakeRefresher] }
  | rfCmdOkOk {id inp e a t} : ls.Has e a → e.id = id → e.ts = .active t →
      ExecR E S now wall ls tid (.rfCmdOk id) inp
        { ls := ls.put e.id (.active { t with ongoing := false }), next := [.wakeRefresher] }
  | rfCmdErrStale {id act inp} : (∀ e ∈ ls.details, e.id ≠ id) →
      ExecR E S now wall ls tid (.rfCmdErr id act) inp
        { ls := ls, next := [.pushEvent act .invalidated, .wakeEventer, .wakeRefresher] }
  | rfCmdErrOk {id act inp e a} : ls.Has e a → e.id = id →
      ExecR E S now wall ls tid (.rfCmdErr id act) inp
        { ls := ls.put e.id .empty, next := [.pushEvent act .invalidated, .wakeEventer, .wakeRefresher] }

/-- An id is stale, or it belongs to an entry. -/
theorem LockedState.WF.validCases {ls : LockedState} (h : ls.WF) (id : Nat) :
    (ls.isActIdValid id = false ∧ ∀ e ∈ ls.details, e.id ≠ id) ∨
    (ls.isActIdValid id = true ∧ ∃ e a, ls.Has e a ∧ e.id = id) := by
  cases hv : ls.isActIdValid id with
  | false => exact Or.inl ⟨rfl, isActIdValid_false.mp hv⟩
  | true =>
    obtain ⟨e, he, hid⟩ := isActIdValid_iff.mp hv
    obtain ⟨a, ha⟩ := h.has he
    exact Or.inr ⟨rfl, e, a, ha, hid⟩

theorem LockedState.WF.expiryInstant {ls : LockedState} (h : ls.WF) {e : Entry} {a : Account}
    (he : ls.Has e a) (now : Instant) (x : Nat) :
    ∃ r, expiryInstant ls e.id now x = some r ∧ ExpiryAt ls a now x r := by
  unfold Pizauth.expiryInstant ExpiryAt
  rw [h.account he]
  cases checkedAdd now (secs x) <;> simp

section
variable {E : Env} {S : Static} {now : Instant} {wall : SysTime} {ls : LockedState} {tid : Nat}

theorem startAuth_ok (h : ls.WF) {buf : Bytes} {inp : Input} {u : Bool} {e : Entry} {a : Account}
    (he : ls.Has e a)
    (hreq : parseReq buf = .showtoken u e.name ∧ e.ts = .empty ∨
        parseReq buf = .refresh u e.name ∧ (e.ts = .empty ∨ ∃ p, e.ts = .pending p))
    {f : Eff} (hx : startAuth E S ls e.id u inp = .ok f) : ExecR E S now wall ls tid (.unix buf) inp f := by
  have hts : ∀ t, e.ts ≠ .active t := by
    rintro t ht; rw [ht] at hreq; rcases hreq with ⟨_, h⟩ | ⟨_, h | ⟨_, h⟩⟩ <;> cases h
  unfold startAuth requestToken at hx
  rw [h.tokenstate he.1, h.account he] at hx
  have key : ∀ (r : Res (Url × LockedState)),
      r = (match a.redirectUrl E S.httpPort S.httpsPort with
      | .panic => .panic
      | .err m => .err m
      | .ok redirect =>
        match E.parseWithParams a.authUri
            (authParams a (codeChallenge E (b64 inp.rndVerifier.toList)) (E.renderUrl redirect)
              (b64 inp.rndState.toList)) with
        | none => .err "url"
        | some url =>
          match ls.tokenstateReplace e.id (freshPending url inp) with
          | none => .panic
          | some (_, ls') => .ok (url, ls')) →
      (match r with
      | .panic => Out.panic
      | .err _ => .ok { ls := ls }
      | .ok (url, ls') =>
        .ok { ls := ls', next := [.wakeNotifier, .reply (pendingReply E u url)] }) = .ok f →
      ExecR E S now wall ls tid (.unix buf) inp f := by
    rintro r rfl hf
    cases hr : a.redirectUrl E S.httpPort S.httpsPort with
    | panic => simp [hr] at hf
    | err m =>
      simp only [hr, Out.ok.injEq] at hf
      subst hf
      refine ExecR.authErr he hreq ?_
      rintro url ⟨x, hx, _⟩
      rw [hr] at hx; cases hx
    | ok redirect =>
      simp only [hr] at hf
      cases hp : E.parseWithParams a.authUri
            (authParams a (codeChallenge E (b64 inp.rndVerifier.toList)) (E.renderUrl redirect)
              (b64 inp.rndState.toList)) with
      | none =>
        simp only [hp, Out.ok.injEq] at hf
        subst hf
        refine ExecR.authErr he hreq ?_
        rintro url ⟨x, hx, hp'⟩
        rw [hr] at hx; cases hx
        rw [hp] at hp'; cases hp'
      | some url =>
        simp only [hp, h.tokenstateReplace he.1, Out.ok.injEq] at hf
        subst hf
        exact ExecR.auth he hreq ⟨redirect, hr, hp⟩
  cases hc : e.ts with
  | active t => exact absurd hc (hts t)
  | empty => rw [hc] at hx; exact key _ rfl hx
  | pending p => rw [hc] at hx; exact key _ rfl hx

theorem execUnix_ok (h : ls.WF) {buf : Bytes} {inp : Input} {f : Eff}
    (hx : execUnix E S now wall ls (parseReq buf) inp = .ok f) : ExecR E S now wall ls tid (.unix buf) inp f := by
  cases hreq : parseReq buf with
  | dump =>
    simp only [hreq, execUnix] at hx
    split at hx <;> simp at hx <;> subst hx
    · exact .dumpErr hreq (by assumption)
    · exact .dumpOk hreq (by assumption)
  | info => simp only [hreq, execUnix, Out.ok.injEq] at hx; subst hx; exact .info hreq
  | reload =>
    simp only [hreq, execUnix] at hx
    split at hx
    · split at hx
      · simp at hx; subst hx; exact .reloadOk hreq (by assumption) (by assumption)
      · simp at hx
    · simp at hx; subst hx; exact .reloadErr hreq (by assumption)
  | refresh u n =>
    simp only [hreq, execUnix] at hx
    split at hx
    · simp at hx; subst hx
      exact .noAccount (Or.inl ⟨u, hreq⟩) (validateActName_none (by assumption))
    · rename_i id hid
      obtain ⟨e, he, rfl, rfl⟩ := validateActName_some hid
      obtain ⟨a, ha⟩ := h.has he
      rw [h.tokenstate he] at hx
      cases hts : e.ts with
      | empty => rw [hts] at hx; exact startAuth_ok h ha (Or.inr ⟨hreq, Or.inl hts⟩) hx
      | pending p => rw [hts] at hx; exact startAuth_ok h ha (Or.inr ⟨hreq, Or.inr ⟨p, hts⟩⟩) hx
      | active t => rw [hts] at hx; simp at hx; subst hx; exact .refreshSched ha hreq hts
  | restore d =>
    simp only [hreq, execUnix] at hx
    split at hx
    · simp at hx; subst hx; exact .restoreShort hreq (by assumption)
    · split at hx
      · simp at hx; subst hx; exact .restoreBad hreq (by assumption) (by assumption)
      · split at hx <;> simp at hx <;> subst hx
        · exact .restoreErr hreq (by assumption) (by assumption) (by assumption)
        · exact .restoreOk hreq (by assumption) (by assumption) (by assumption)
  | revoke n =>
    simp only [hreq, execUnix] at hx
    split at hx
    · simp at hx; subst hx
      exact .noAccount (Or.inr (Or.inl hreq)) (validateActName_none (by assumption))
    · rename_i id hid
      obtain ⟨e, he, rfl, rfl⟩ := validateActName_some hid
      obtain ⟨a, ha⟩ := h.has he
      rw [h.tokenstateReplace he] at hx
      simp at hx; subst hx
      exact .revoke ha hreq
  | showtoken u n =>
    simp only [hreq, execUnix] at hx
    split at hx
    · simp at hx; subst hx
      exact .noAccount (Or.inr (Or.inr ⟨u, hreq⟩)) (validateActName_none (by assumption))
    · rename_i id hid
      obtain ⟨e, he, rfl, rfl⟩ := validateActName_some hid
      obtain ⟨a, ha⟩ := h.has he
      rw [h.tokenstate he] at hx
      cases hts : e.ts with
      | empty => rw [hts] at hx; exact startAuth_ok h ha (Or.inl ⟨hreq, hts⟩) hx
      | pending p => rw [hts] at hx; simp at hx; subst hx; exact .showPending ha hreq hts
      | active t =>
        rw [hts] at hx
        simp only at hx
        split at hx
        · simp at hx; subst hx; exact .showTok ha hreq hts (by assumption)
        · split at hx
          · simp at hx; subst hx; exact .showOngoing ha hreq hts (by assumption) (by assumption)
          · rename_i ho
            simp at hx; subst hx; exact .showExpired ha hreq hts (by assumption) (by simpa using ho)
  | shutdown => simp only [hreq, execUnix, Out.ok.injEq] at hx; subst hx; exact .shutdown hreq
  | status =>
    simp only [hreq, execUnix] at hx
    split at hx <;> simp at hx
    subst hx; exact .status hreq (by assumption)
  | unknown c => simp only [hreq, execUnix, Out.ok.injEq] at hx; subst hx; exact .unknown hreq
  | invalid => simp only [hreq, execUnix, Out.ok.injEq] at hx; subst hx; exact .invalid hreq

theorem execHttp_ok (h : ls.WF) {buf : Bytes} {sec : Bool} {inp : Input} {f : Eff}
    (hx : execHttp E S ls buf sec = .ok f) : ExecR E S now wall ls tid (.http buf sec) inp f := by
  unfold execHttp at hx
  split at hx
  · simp at hx; subst hx; exact .httpBad (by assumption)
  rename_i uri huri
  split at hx
  · simp at hx; subst hx; exact .httpNoState huri (by assumption)
  rename_i s hs
  split at hx
  · simp at hx; subst hx; exact .httpNoMatch huri hs (actIdMatching_none (by assumption))
  rename_i id hid
  obtain ⟨e, he, rfl, p, hp, hps⟩ := actIdMatching_some hid
  obtain ⟨a, ha⟩ := h.has he
  rw [h.account ha] at hx
  simp only at hx
  split at hx
  · simp at hx
  · simp at hx; subst hx; exact .httpRedirErr huri hs ha hp hps (by assumption)
  rename_i x hx'
  split at hx
  · simp at hx; subst hx; exact .httpOrigin huri hs ha hp hps hx' (by assumption)
  rename_i horg
  split at hx
  · rename_i m hm
    rw [h.tokenstateReplace he] at hx
    simp only [h.put_account ha] at hx
    simp at hx; subst hx
    exact .httpError huri hs ha hp hps hx' horg hm
  rename_i hm
  split at hx
  · simp at hx; subst hx; exact .httpNoCode huri hs ha hp hps hx' horg hm (by assumption)
  rename_i code hcode
  rw [h.tokenstate he, hp] at hx
  simp at hx; subst hx
  exact .httpCode huri hs ha hp hps hx' horg hm hcode

theorem execExAwait_ok {c : ExCtx} {k : Nat} {inp : Input} {f : Eff}
    (hx : execExAwait now ls tid c k inp.net = .ok f) : ExecR E S now wall ls tid (.exAwait c k) inp f := by
  unfold execExAwait at hx
  cases hn : inp.net <;> simp only [hn, Out.ok.injEq] at hx <;> subst hx <;> try rw [← hn]
  · rw [hn]; exact .exAwaitBody hn
  · exact .exAwaitErr (by simp [hn, Net.isResponse]) (by simp [hn]) (by rw [hn]; exact .json)
  · exact .exAwaitErr (by simp [hn, Net.isResponse]) (by simp [hn]) (by rw [hn]; exact .read)
  · refine .exAwaitErr (by simp [hn, Net.isResponse]) (by simp [hn]) ?_
    rw [hn]
    unfold statusReason
    split
    · exact .status
    · exact .statusOnly
  · rw [hn]; exact .exAwaitRetry hn

theorem execExDone_ok (h : ls.WF) {c : ExCtx} {b : Body} {inp : Input} {f : Eff}
    (hx : execExDone now ls c b = .ok f) : ExecR E S now wall ls tid (.exDone c b) inp f := by
  unfold execExDone at hx
  rcases h.validCases c.id with ⟨hv, hst⟩ | ⟨hv, e, a, ha, hid⟩
  · simp [hv] at hx; subst hx; exact .exDoneStale hst
  simp only [hv, Bool.not_true, Bool.false_eq_true, if_false] at hx
  split at hx
  · simp at hx; subst hx; exact .exDoneErr ha hid (by assumption)
  rename_i herr
  split at hx
  · rename_i x tok hty hexp htok
    obtain ⟨r, hr, hra⟩ := h.expiryInstant ha now x
    rw [hid] at hr
    rw [hr] at hx
    cases r with
    | none => simp at hx; subst hx; exact .exDoneNoExpiry ha hid herr hty hexp htok hra
    | some expiry =>
      rw [← hid, h.account ha] at hx
      simp only [h.tokenstateReplace ha.1, Out.ok.injEq] at hx
      subst hx
      exact .exDoneOk ha hid herr hty hexp htok hra
  · rename_i hno
    simp at hx; subst hx
    refine .exDoneInvalid ha hid herr ?_
    rintro ⟨h1, h2, h3⟩
    obtain ⟨x, hx⟩ := Option.isSome_iff_exists.mp h2
    obtain ⟨tok, htok⟩ := Option.isSome_iff_exists.mp h3
    exact hno x tok h1 hx htok

theorem execFail_ok (h : ls.WF) {id : Nat} {m : String} {inp : Input} {f : Eff}
    (hx : execFail ls id m = .ok f) : ExecR E S now wall ls tid (.fail id m) inp f := by
  unfold execFail at hx
  rcases h.validCases id with ⟨hv, hst⟩ | ⟨hv, e, a, ha, rfl⟩
  · simp [hv] at hx; subst hx; exact .failStale hst
  simp only [hv, if_true, h.tokenstate ha.1, h.tokenstateReplace ha.1, h.put_account ha, Out.ok.injEq] at hx
  subst hx
  exact .failOk ha rfl

theorem execRfStart_ok (h : ls.WF) {id : Nat} {inp : Input} {f : Eff}
    (hx : execRfStart now ls id = .ok f) : ExecR E S now wall ls tid (.rfStart id) inp f := by
  unfold execRfStart at hx
  rcases h.validCases id with ⟨hv, hst⟩ | ⟨hv, e, a, ha, rfl⟩
  · simp [hv] at hx; subst hx; exact .rfStartStale hst
  simp only [hv, if_true, h.tokenstate ha.1] at hx
  cases hts : e.ts with
  | empty => simp [hts] at hx; subst hx; exact .rfStartNot ha rfl (Or.inl hts)
  | pending p => simp [hts] at hx; subst hx; exact .rfStartNot ha rfl (Or.inr (Or.inl ⟨p, hts⟩))
  | active t =>
    simp only [hts] at hx
    cases ho : t.ongoing with
    | true => simp [ho] at hx; subst hx; exact .rfStartNot ha rfl (Or.inr (Or.inr ⟨t, hts, ho⟩))
    | false =>
      simp only [ho, Bool.false_eq_true, if_false, h.tokenstateReplace ha.1, h.put_account ha,
        h.put_tokenstate ha.1] at hx
      cases hr : t.refreshToken with
      | none =>
        simp only [hr, h.put_replace ha.1, Out.ok.injEq] at hx
        subst hx
        exact .rfStartNoRt ha rfl hts ho hr
      | some r =>
        have hacc := h.bump.put_account (e := e) (a := a) ha
        simp only [hr, h.put_replace ha.1] at hx
        have : ∀ ts, (ls.bump.put e.id ts).account (ls.accountCount + 1) = some a := hacc
        simp only [this, Out.ok.injEq] at hx
        subst hx
        rw [← hr]
        exact .rfStartOk ha rfl hts ho hr

theorem execRfAwait_ok {c : RfCtx} {inp : Input} {f : Eff}
    (hx : execRfAwait ls tid c inp.net = .ok f) : ExecR E S now wall ls tid (.rfAwait c) inp f := by
  unfold execRfAwait at hx
  simp only [Out.ok.injEq] at hx
  subst hx
  cases hn : inp.net with
  | body b =>
    simp only [afterRefreshBody]
    cases herr : b.str "error" with
    | some m =>
      rw [← hn]
      exact .rfAwaitPerm (Or.inl ⟨b, hn, Or.inl (by simp [herr])⟩)
    | none =>
      simp only
      split
      · rename_i tok x h1 h2 h3
        exact .rfAwaitOk hn herr h3 h2 h1
      · rename_i hno
        rw [← hn]
        refine .rfAwaitPerm (Or.inl ⟨b, hn, Or.inr ?_⟩)
        rintro ⟨h1, h2, h3⟩
        obtain ⟨x, hx⟩ := Option.isSome_iff_exists.mp h2
        obtain ⟨tok, htok⟩ := Option.isSome_iff_exists.mp h3
        exact hno tok x htok hx h1
  | badJson m => have h1 := ExecR.rfAwaitPerm (E := E) (S := S) (now := now) (wall := wall) (ls := ls) (tid := tid) (c := c) (Or.inr (Or.inl ⟨m, hn⟩)); rw [hn] at h1; exact h1
  | readErr m => have h1 := ExecR.rfAwaitTransient (E := E) (S := S) (now := now) (wall := wall) (ls := ls) (tid := tid) (c := c) (Or.inl ⟨m, hn⟩); rw [hn] at h1; exact h1
  | status code x => have h1 := ExecR.rfAwaitPerm (E := E) (S := S) (now := now) (wall := wall) (ls := ls) (tid := tid) (c := c) (Or.inr (Or.inr (Or.inl ⟨code, x, hn⟩))); rw [hn] at h1; exact h1
  | transport k =>
    have h1 := ExecR.rfAwaitPerm (E := E) (S := S) (now := now) (wall := wall) (ls := ls) (tid := tid) (c := c)
      (inp := inp)
    have h2 := ExecR.rfAwaitTransient (E := E) (S := S) (now := now) (wall := wall) (ls := ls) (tid := tid) (c := c)
      (inp := inp)
    cases k with
    | other => have := h1 (Or.inr (Or.inr (Or.inr hn))); rw [hn] at this; exact this
    | connectionFailed => have := h2 (Or.inr ⟨_, by decide, hn⟩); rw [hn] at this; exact this
    | dns => have := h2 (Or.inr ⟨_, by decide, hn⟩); rw [hn] at this; exact this
    | io => have := h2 (Or.inr ⟨_, by decide, hn⟩); rw [hn] at this; exact this

theorem execRfPerm_ok (h : ls.WF) {c : RfCtx} {inp : Input} {f : Eff}
    (hx : execRfPerm ls c = .ok f) : ExecR E S now wall ls tid (.rfPerm c) inp f := by
  unfold execRfPerm at hx
  rcases h.validCases c.id with ⟨hv, hst⟩ | ⟨hv, e, a, ha, hid⟩
  · simp [hv] at hx; subst hx; exact .rfPermStale hst
  rw [← hid] at hv hx
  simp only [hv, if_true, h.tokenstateReplace ha.1, Out.ok.injEq] at hx
  subst hx
  exact .rfPermOk ha hid

theorem execRfStore_ok (h : ls.WF) {c : RfCtx} {tok : String} {x : Nat} {rt : Option String} {t : Instant}
    {inp : Input} {f : Eff} (hx : execRfStore ls c tok x rt t = .ok f) :
    ExecR E S now wall ls tid (.rfStore c tok x rt t) inp f := by
  unfold execRfStore at hx
  rcases h.validCases c.id with ⟨hv, hst⟩ | ⟨hv, e, a, ha, hid⟩
  · simp [hv] at hx; subst hx; exact .rfStoreStale hst
  obtain ⟨r, hr, hra⟩ := h.expiryInstant ha t x
  rw [← hid] at hv hx
  simp only [hv, if_true, hr] at hx
  cases r with
  | none =>
    simp only [h.tokenstateReplace ha.1, Out.ok.injEq] at hx
    subst hx
    exact .rfStoreNoExpiry ha hid hra
  | some expiry =>
    simp only [h.tokenstateReplace ha.1, Out.ok.injEq] at hx
    subst hx
    exact .rfStoreOk ha hid hra

theorem execRfTransient_ok (h : ls.WF) {c : RfCtx} {inp : Input} {f : Eff}
    (hx : execRfTransient now ls c = .ok f) : ExecR E S now wall ls tid (.rfTransient c) inp f := by
  unfold execRfTransient at hx
  rcases h.validCases c.id with ⟨hv, hst⟩ | ⟨hv, e, a, ha, hid⟩
  · simp [hv] at hx; subst hx; exact .rfTransientStale hst
  rw [← hid] at hv hx
  simp only [hv, if_true, h.tokenstate ha.1] at hx
  cases hts : e.ts with
  | empty => simp [hts] at hx
  | pending p => simp [hts] at hx
  | active t =>
    simp only [hts, h.tokenstateReplace ha.1, LockedState.tokenstateSetOngoingRefresh, h.put_tokenstate ha.1,
      h.put_replace ha.1, LockedState.put_config] at hx
    by_cases hm : (t.fails + 1) % transientErrorRetries = 0
    · cases hc : ls.config.transientErrorIfCmd with
      | some cmd =>
        simp only [hm, hc, if_true, Out.ok.injEq] at hx
        subst hx
        exact .rfTransientCmd ha hid hts hm hc
      | none =>
        simp only [hm, hc, if_true, Out.ok.injEq] at hx
        subst hx
        exact .rfTransientKeep ha hid hts (by simp [hc])
    · simp only [hm, if_false, Out.ok.injEq] at hx
      subst hx
      exact .rfTransientKeep ha hid hts (by simp [hm])

theorem execRfCmdOk_ok (h : ls.WF) {id : Nat} {inp : Input} {f : Eff}
    (hx : execRfCmdOk ls id = .ok f) : ExecR E S now wall ls tid (.rfCmdOk id) inp f := by
  unfold execRfCmdOk at hx
  rcases h.validCases id with ⟨hv, hst⟩ | ⟨hv, e, a, ha, rfl⟩
  · simp [hv] at hx; subst hx; exact .rfCmdOkStale hst
  simp only [hv, if_true, LockedState.tokenstateSetOngoingRefresh, h.tokenstate ha.1] at hx
  cases hts : e.ts with
  | empty => simp [hts] at hx
  | pending p => simp [hts] at hx
  | active t =>
    simp only [hts, h.tokenstateReplace ha.1, Out.ok.injEq] at hx
    subst hx
    exact .rfCmdOkOk ha rfl hts

theorem execRfCmdErr_ok (h : ls.WF) {id : Nat} {act : String} {inp : Input} {f : Eff}
    (hx : execRfCmdErr ls id act = .ok f) : ExecR E S now wall ls tid (.rfCmdErr id act) inp f := by
  unfold execRfCmdErr at hx
  rcases h.validCases id with ⟨hv, hst⟩ | ⟨hv, e, a, ha, rfl⟩
  · simp [hv] at hx; subst hx; exact .rfCmdErrStale hst
  simp only [hv, if_true, h.tokenstateReplace ha.1, Out.ok.injEq] at hx
  subst hx
  exact .rfCmdErrOk ha rfl

/-- In a well-formed state an operation has one of the listed effects. -/
theorem exec_ok (h : ls.WF) {op : Op} {inp : Input} {f : Eff}
    (hx : exec E S now wall ls tid op inp = .ok f) : ExecR E S now wall ls tid op inp f := by
  cases op with
  | unix buf => exact execUnix_ok h hx
  | install c =>
    simp only [exec] at hx
    split at hx <;> simp at hx
    subst hx; exact .install (by assumption)
  | reply b => simp only [exec, Out.ok.injEq] at hx; subst hx; exact .reply
  | close => simp only [exec, Out.ok.injEq] at hx; subst hx; exact .close
  | wakeRefresher => simp only [exec, Out.ok.injEq] at hx; subst hx; exact .wakeRefresher
  | wakeNotifier => simp only [exec, Out.ok.injEq] at hx; subst hx; exact .wakeNotifier
  | pushEvent act ev => simp only [exec, Out.ok.injEq] at hx; subst hx; exact .pushEvent
  | wakeEventer => simp only [exec, Out.ok.injEq] at hx; subst hx; exact .wakeEventer
  | notifyError act msg =>
    simp only [exec, execNotifyError] at hx
    split at hx <;> simp at hx <;> subst hx
    · exact .notifyErrorCmd (by assumption)
    · exact .notifyErrorLog (by assumption)
  | http buf sec => exact execHttp_ok h hx
  | httpAnswer b => simp only [exec, Out.ok.injEq] at hx; subst hx; exact .httpAnswer
  | exSend c k => simp only [exec, Out.ok.injEq] at hx; subst hx; exact .exSend
  | exAwait c k => exact execExAwait_ok hx
  | exSleep c k wake =>
    simp only [exec, execExSleep] at hx
    split at hx
    · simp at hx
    · split at hx <;> simp at hx <;> subst hx
      · exact .exSleepRetry (by assumption) (by assumption)
      · exact .exSleepFail (by assumption) (by assumption)
  | exDone c b => exact execExDone_ok h hx
  | fail id m => exact execFail_ok h hx
  | rfStart id => exact execRfStart_ok h hx
  | rfSend c => simp only [exec, Out.ok.injEq] at hx; subst hx; exact .rfSend
  | rfAwait c => exact execRfAwait_ok hx
  | rfPerm c => exact execRfPerm_ok h hx
  | rfNow c tok x rt => simp only [exec, Out.ok.injEq] at hx; subst hx; exact .rfNow
  | rfStore c tok x rt t => exact execRfStore_ok h hx
  | rfTransient c => exact execRfTransient_ok h hx
  | rfCmd id act cmd => simp only [exec, Out.ok.injEq] at hx; subst hx; exact .rfCmd
  | rfCmdWait id act =>
    simp only [exec, Out.ok.injEq] at hx; subst hx
    cases hc : inp.cmdOk
    · exact .rfCmdWaitErr hc
    · exact .rfCmdWaitOk hc
  | rfCmdOk id => exact execRfCmdOk_ok h hx
  | rfCmdErr id act => exact execRfCmdErr_ok h hx

end
end Pizauth

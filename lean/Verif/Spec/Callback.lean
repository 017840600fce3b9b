import Verif.Spec.Tokens
import Verif.Spec.Trace
import Verif.Spec.Reason

/-!
# Specification: authorisation callbacks in flight

A thread which exchanges a code for a token has a handle (an account id) on the account, like a thread which refreshes.
-/

namespace Pizauth

/-- The handle of a thread which exchanges a code. -/
def Op.authHandle : Op → Option Nat
  | .exSend c _ | .exAwait c _ | .exSleep c _ _ | .exDone c _ => some c.id
  | .fail id _ => some id
  | _ => none

/-- Thread `i` is exchanging a code, with the handle `h`. -/
def Exchanging (w : World) (i h : Nat) : Prop := ∃ o ∈ w.threads i, o.authHandle = some h

/-- Thread `i` is exchanging a code for account `n`, and its handle is still valid. -/
def ExchangingAccount (w : World) (i : Nat) (n : String) : Prop :=
  ∃ e ∈ w.ls.details, e.name = n ∧ Exchanging w i e.id

/-- Thread `i` is exchanging a code, but its handle is no longer valid. -/
def AuthLost (w : World) (i : Nat) : Prop := (∃ h, Exchanging w i h) ∧ ∀ n, ¬ ExchangingAccount w i n

/-- Scheme, host and port agree. -/
def SameOrigin (u v : Url) : Prop := u.scheme = v.scheme ∧ u.host = v.host ∧ u.port = v.port

/-- The HTTP request `buf` names, by its `state`, the authorisation `p` for which account `n` waits. -/
def Names (E : Env) (ls : LockedState) (buf : Bytes) (sec : Bool) (n : String) (p : PendingTok) (uri : Url) : Prop :=
  parseGet E buf sec = some uri ∧ uri.param "state" = some p.state ∧ HoldsPending ls n p

/-- The request came to the redirect URI of account `n`. -/
def AtRedirect (E : Env) (S : Static) (ls : LockedState) (n : String) (uri : Url) : Prop :=
  ∃ a x, ls.config.get? n = some a ∧ a.redirectUrl E S.httpPort S.httpsPort = .ok x ∧ SameOrigin x uri

/-- The answers to HTTP requests. -/
inductive Answer where
  | ok (text : String)
  | badRequest
  | notFound

def Answer.bytes : Answer → Bytes
  | .ok t => utf8 ("HTTP/1.1 200 OK\r\n\r\n<html><body><h2>" ++ t ++ "</h2></body></html>")
  | .badRequest => utf8 "HTTP/1.1 400\r\n\r\n"
  | .notFound => utf8 "HTTP/1.1 404\r\n\r\n"

/-- How a request is to be answered. (If two accounts should wait for the same `state`, any of them counts.) -/
inductive AnswerFor (E : Env) (S : Static) (ls : LockedState) (buf : Bytes) (sec : Bool) : Answer → Prop where
  | malformed : parseGet E buf sec = none → AnswerFor E S ls buf sec .badRequest
  | noState {uri : Url} : parseGet E buf sec = some uri → uri.param "state" = none → AnswerFor E S ls buf sec .notFound
  | unknown {uri : Url} {s : String} : parseGet E buf sec = some uri → uri.param "state" = some s →
      (∀ n p, HoldsPending ls n p → p.state ≠ s) →
      AnswerFor E S ls buf sec (.ok "No pending token matches request state: request a fresh token")
  | origin {n : String} {p : PendingTok} {uri : Url} : Names E ls buf sec n p uri → ¬ AtRedirect E S ls n uri →
      AnswerFor E S ls buf sec .notFound
  | error {n : String} {p : PendingTok} {uri : Url} {m : String} : Names E ls buf sec n p uri → AtRedirect E S ls n uri →
      uri.param "error" = some m → AnswerFor E S ls buf sec .badRequest
  | noCode {n : String} {p : PendingTok} {uri : Url} : Names E ls buf sec n p uri → AtRedirect E S ls n uri →
      uri.param "error" = none → uri.param "code" = none → AnswerFor E S ls buf sec .badRequest
  | code {n : String} {p : PendingTok} {uri : Url} {c : String} : Names E ls buf sec n p uri →
      AtRedirect E S ls n uri → uri.param "error" = none → uri.param "code" = some c →
      AnswerFor E S ls buf sec (.ok "pizauth processing authentication: you can safely close this page.")

/-- Thread `i` is about to handle the HTTP request `buf`. -/
def Handling (w : World) (i : Nat) (buf : Bytes) (sec : Bool) : Prop := w.threads i = [.http buf sec]

/-- The exchange of messages with browsers and token servers. -/
def Obs.IsTraffic : Obs → Prop
  | .httpReq _ _ _ | .httpAnswer _ _ | .post _ _ _ | .resp _ _ _ _ => True
  | _ => False

/-- The refresh token which comes with a first token. -/
def firstRefreshToken (b : Body) : Option String :=
  match b.get "refresh_token" with
  | some (.str r) => some r
  | _ => none

/-- Among the token servers' answers in `l` there is one which grants a token. -/
def Granted (l : List Obs) : Prop := ∃ i u f b tok x, .resp i u f (.body b) ∈ l ∧ Issued b tok x

end Pizauth

import Verif.Model.Json

/-!
# Requests to token servers, with redirections (ureq 2.12.1)

`ureq` is not part of the repository. The daemon uses it with its default settings except for the timeout
(src/server/http_server.rs:159-181, src/server/refresher.rs:252-291): `AgentBuilder::new().timeout(…).build().post(uri)
.send_form(form)`. This file is what `connect` in `src/unit.rs` and `do_call` in `src/request.rs` of that library make of
such a call.

Simplifications: of the headers, only `location` is modelled (after a redirection, the library also leaves out the headers
which belong to the form, and those with credentials); connections which are reused or retried are not modelled; `follow`
is given the requests so far, newest first, instead of only the newest one.
-/

namespace Pizauth.Ureq

/-- A request on the wire. Used by src/server/http_server.rs:159-181, src/server/refresher.rs:252-291. -/
structure Request where
  method : String
  uri : String
  /-- the form which is sent, if any -/
  form : Option (List (String × String))
deriving DecidableEq, Repr

/-- An HTTP response. Used by src/server/http_server.rs:159-181, src/server/refresher.rs:252-291. -/
structure Response where
  status : Nat
  location : Option String
  /-- `none`: it cannot be read, or not as text -/
  body : Option String
deriving DecidableEq, Repr

/-- What becomes of a request. Used by src/server/http_server.rs:159-181, src/server/refresher.rs:252-291. -/
inductive Reply where
  | response (r : Response)
  | fail (k : TransportKind)
deriving DecidableEq, Repr

/-- The default of `AgentBuilder::redirects`. Used by src/server/http_server.rs:159-181,
src/server/refresher.rs:252-291. -/
def maxRedirects : Nat := 5

/-- The method of the request after a redirection (`none`: the redirection is not followed). Used by
src/server/http_server.rs:159-181, src/server/refresher.rs:252-291. -/
def redirectMethod (status : Nat) (method : String) : Option String :=
  if status = 301 ∨ status = 302 ∨ status = 303 then
    if method = "GET" ∨ method = "HEAD" then some method else some "GET"
  else if status = 307 ∨ status = 308 then
    if method = "GET" ∨ method = "HEAD" ∨ method = "OPTIONS" ∨ method = "TRACE" then some method else none
  else none

/-- `connect`: send the newest request, and follow up to `n` redirections. `join` is `Url::join`; `web` says what becomes
of the newest of these requests. The result: all requests (newest first), and the last response or the error. Used
by src/server/http_server.rs:159-181, src/server/refresher.rs:252-291. -/
def follow (join : String → String → Option String) (web : Request → List Request → Reply) :
    Nat → Request → List Request → List Request × Except TransportKind Response
  | n, q, before =>
    match web q before with
    | .fail k => (q :: before, .error k)
    | .response r =>
      if 300 ≤ r.status ∧ r.status < 399 then
        match n with
        | 0 => (q :: before, .error .other)
        | n + 1 =>
          match r.location with
          | none => (q :: before, .ok r)
          | some l =>
            match join q.uri l with
            | none => (q :: before, .error .other)
            | some u =>
              match redirectMethod r.status q.method with
              | none => (q :: before, .ok r)
              | some m => follow join web n ⟨m, u, none⟩ (q :: before)
      else (q :: before, .ok r)

/-- `do_call`, `into_string` and `serde_json::from_str`: what the daemon makes of it, src/server/http_server.rs:166-195,
src/server/refresher.rs:259-298. -/
def outcome (r : Except TransportKind Response) : Net :=
  match r with
  | .error k => .transport k
  | .ok r =>
    if r.status ≥ 400 then .status r.status r.body
    else
      match r.body with
      | none => .readErr "unreadable"
      | some s => Net.ofText s "invalid"

/-- `ureq::AgentBuilder::new().timeout(…).build().post(uri).send_form(form)`: all requests, oldest first, and what the
daemon makes of it. Used by src/server/http_server.rs:159-181, src/server/refresher.rs:252-291. -/
def send (join : String → String → Option String) (web : Request → List Request → Reply) (uri : String)
    (form : List (String × String)) : List Request × Net :=
  match follow join web maxRedirects ⟨"POST", uri, some form⟩ [] with
  | (qs, r) => (qs.reverse, outcome r)

end Pizauth.Ureq

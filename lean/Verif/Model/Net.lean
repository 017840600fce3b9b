import Verif.Model.State

/-!
# Answers of an OAuth token server, as the daemon sees them (ureq, serde_json)
-/

namespace Pizauth

/-- A JSON value, as far as the daemon distinguishes values: strings, numbers for which `as_u64` is `Some`, and
everything else, src/server/http_server.rs:208-220, src/server/refresher.rs:297,322-332. -/
inductive JVal where
  | str (s : String)
  | u64 (n : Nat)
  | other
deriving DecidableEq, Repr

/-- A parsed JSON text: an object (key/value pairs) or some other value, src/server/http_server.rs:195,
src/server/refresher.rs:295. -/
inductive Body where
  | obj (kvs : List (String × JVal))
  | nonObj
deriving DecidableEq, Repr

/-- `Value::get(key)`, src/server/refresher.rs:328. -/
def Body.get (b : Body) (k : String) : Option JVal :=
  match b with
  | .obj kvs => kvs.lookup k
  | .nonObj => none

/-- `value[key].as_str()` (`Null` when the key is missing or the value is not an object),
src/server/http_server.rs:208-218, src/server/refresher.rs:297,323-325. -/
def Body.str (b : Body) (k : String) : Option String :=
  match b.get k with
  | some (.str s) => some s
  | _ => none

/-- `value[key].as_u64()`, src/server/http_server.rs:216, src/server/refresher.rs:324. -/
def Body.u64 (b : Body) (k : String) : Option Nat :=
  match b.get k with
  | some (.u64 n) => some n
  | _ => none

/-- `ureq::ErrorKind`, as far as the daemon distinguishes kinds (src/server/refresher.rs:277-284). -/
inductive TransportKind where
  | connectionFailed
  | dns
  | io
  | other
deriving DecidableEq, Repr

/-- Outcome of `…post(uri).send_form(form)` followed by `into_string` and `serde_json::from_str`.
Simplification: texts of library errors are opaque strings; HTTP redirects followed by ureq are part of
"the server's answer", src/server/http_server.rs:159-201, src/server/refresher.rs:252-320. -/
inductive Net where
  /-- success status, body is JSON -/
  | body (b : Body)
  /-- success status, body is not JSON -/
  | badJson (msg : String)
  /-- success status, body could not be read -/
  | readErr (msg : String)
  /-- non-success status; the body if it could be read -/
  | status (code : Nat) (body : Option String)
  /-- no HTTP response -/
  | transport (k : TransportKind)
deriving DecidableEq, Repr

/-- Did the server answer with an HTTP response? src/server/http_server.rs:165-182. -/
def Net.isResponse : Net → Bool
  | .transport _ => false
  | _ => true

end Pizauth

import Verif.Model.Prelude

/-!
# External components

Everything the daemon delegates to a library or the outside world is a field of `Env`. No law about
any field is assumed by the model; a theorem which needs one takes it as an explicit hypothesis.
-/

namespace Pizauth

/-- The parts of `url::Url` that the daemon inspects or changes. Simplification: user info, path and
fragment are carried as one opaque string `rest`; `query` is the result of `query_pairs()`. As in the
`url` crate `port` is `none` when the port is the scheme's default port. -/
structure Url where
  scheme : String
  host : Option String
  port : Option Nat
  rest : String
  query : List (String × String)
deriving DecidableEq, Repr, Inhabited

/-- Default ports known to the `url` crate for the two schemes accepted by the configuration. -/
def defaultPort (scheme : String) : Option Nat :=
  if scheme = "http" then some 80 else if scheme = "https" then some 443 else none

/-- `Url::set_port` (`none` models `Err(())`): fails for URLs without a (non-empty) host and for `file:`;
the scheme's default port is normalised to "no port", src/config.rs:547-562. -/
def Url.setPort (u : Url) (p : Option Nat) : Option Url :=
  if u.host.isNone || u.host = some "" || u.scheme = "file" then none
  else if p.isSome && p = defaultPort u.scheme then some { u with port := none }
  else some { u with port := p }

/-- External functions. Each field says where it is used (src/server/*.rs). -/
structure Env where
  /-- `Url::parse` (`none` models `Err`). -/
  parseUrl : String → Option Url
  /-- `Url::to_string` / `as_str`. -/
  renderUrl : Url → String
  /-- SHA-256. -/
  sha256 : Bytes → Bytes
  /-- ChaCha20Poly1305 encryption with the fixed key: nonce, plaintext. -/
  encrypt : Bytes → Bytes → Option Bytes
  /-- ChaCha20Poly1305 decryption with the fixed key: nonce, ciphertext. -/
  decrypt : Bytes → Bytes → Option Bytes
  /-- chrono's conversion of a `SystemTime` to local time followed by `to_rfc2822`;
  `none` models the panic chrono raises for dates it cannot represent or print. -/
  rfc2822 : SysTime → Option String

/-- Is this an absolute HTTP or HTTPS URI? (The test at src/config.rs:300-306.) -/
def Env.isHttpUri (E : Env) (s : String) : Bool :=
  match E.parseUrl s with
  | some u => u.scheme == "http" || u.scheme == "https"
  | none => false

/-- `Url::parse_with_params(base, params)`: parse, then append the pairs to the query, src/server/request_token.rs:53. -/
def Env.parseWithParams (E : Env) (base : String) (ps : List (String × String)) : Option Url :=
  (E.parseUrl base).map fun u => { u with query := u.query ++ ps }

end Pizauth

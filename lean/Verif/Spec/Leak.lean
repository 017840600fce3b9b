import Verif.Model.World

/-!
# Specification: who learns client secrets, verifiers and authorisation codes

Nobody learns a value from something which stays the same when the value is replaced by another one. As in
`Spec/Secrets.lean`, but the replacement is one of client secrets in configurations, of random bytes for PKCE verifiers,
and of the codes in callbacks.
-/

namespace Pizauth

/-- What is put in the places of secret values. -/
structure Swap where
  /-- client secrets -/
  secret : String → String
  /-- the random bytes of a verifier -/
  bytes : Vector UInt8 64 → Vector UInt8 64
  /-- verifiers -/
  verifier : String → String
  /-- authorisation codes -/
  code : String → String
  /-- HTTP requests (with codes in them), on the HTTPS port or the HTTP port -/
  page : Bool → Bytes → Bytes

def Account.swap (s : Swap) (a : Account) : Account := { a with clientSecret := a.clientSecret.map s.secret }

def Config.swap (s : Swap) (c : Config) : Config := { c with accounts := c.accounts.map fun p => (p.1, p.2.swap s) }

/-- Other values for `code`. -/
def Url.swap (s : Swap) (u : Url) : Url :=
  { u with query := u.query.map fun kv => (kv.1, if kv.1 = "code" then s.code kv.2 else kv.2) }

/-- Other values for `client_secret`, `code_verifier` and `code` in a form. -/
def Swap.field (s : Swap) (kv : String × String) : String × String :=
  (kv.1, if kv.1 = "client_secret" then s.secret kv.2 else if kv.1 = "code_verifier" then s.verifier kv.2
    else if kv.1 = "code" then s.code kv.2 else kv.2)

/-- The same action, except for configurations which are loaded, random bytes and callbacks. -/
def Action.swap (s : Swap) : Action → Action
  | .http buf isHttps => .http (s.page isHttps buf) isHttps
  | .run tid inp => .run tid { inp with conf := inp.conf.map (Config.swap s), rndVerifier := s.bytes inp.rndVerifier }
  | a => a

/-- The same observation, except for what clients and users themselves put in, and for forms sent to token servers. -/
def Obs.swap (s : Swap) : Obs → Obs
  | .httpReq tid buf isHttps => .httpReq tid (s.page isHttps buf) isHttps
  | .post tid uri form => .post tid uri (form.map s.field)
  | .resp tid uri form net => .resp tid uri (form.map s.field) net
  | .reloaded c => .reloaded (c.swap s)
  | o => o

/-- A replacement which makes sense, from the program with the functions `E` to that with `E'`: different client secrets
stay different; verifiers are those of other random bytes, but have the same hashes (so `E'` has another hash function);
and callbacks differ in nothing but their codes. -/
structure Swap.Ok (s : Swap) (E E' : Env) : Prop where
  secret : ∀ x y, s.secret x = s.secret y → x = y
  verifier : ∀ r, s.verifier (b64 r.toList) = b64 (s.bytes r).toList
  env : E' = { E with sha256 := E'.sha256 }
  hash : ∀ r : Vector UInt8 64, E'.sha256 (utf8 (b64 (s.bytes r).toList)) = E.sha256 (utf8 (b64 r.toList))
  page : ∀ buf isHttps, parseGet E (s.page isHttps buf) isHttps = (parseGet E buf isHttps).map (Url.swap s)

/-- A client asks for a dump, or for one to be restored. -/
def AsksDumpOrRestore (a : Action) : Prop :=
  ∃ buf, a = .connect buf ∧ (parseReq buf = .dump ∨ ∃ d, parseReq buf = .restore d)

end Pizauth

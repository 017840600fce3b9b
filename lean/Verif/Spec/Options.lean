import Verif.Model.Syntax
import Verif.Spec.Texts

/-!
# Specification: which configurations are valid, and what they say

Stated on the syntax tree, without reference to the order in which the code looks at it.
-/

namespace Pizauth

/-- The keyword of an account field. -/
def AccountField.key : AccountField → Kind
  | .authUri _ => .AUTH_URI
  | .authUriFields _ => .AUTH_URI_FIELDS
  | .clientId _ => .CLIENT_ID
  | .clientSecret _ => .CLIENT_SECRET
  | .loginHint _ => .LOGIN_HINT
  | .redirectUri _ => .REDIRECT_URI
  | .refreshAtLeast _ => .REFRESH_AT_LEAST
  | .refreshBeforeExpiry _ => .REFRESH_BEFORE_EXPIRY
  | .refreshRetry _ => .REFRESH_RETRY
  | .scopes _ => .SCOPES
  | .tokenUri _ => .TOKEN_URI

/-- The keyword of a top-level option. -/
def TopLevel.key : TopLevel → Kind
  | .account _ _ => .ACCOUNT
  | .authErrorCmd => .AUTH_ERROR_CMD
  | .authNotifyCmd _ => .AUTH_NOTIFY_CMD
  | .authNotifyInterval _ => .AUTH_NOTIFY_INTERVAL
  | .errorNotifyCmd _ => .ERROR_NOTIFY_CMD
  | .httpListen _ | .httpListenNone => .HTTP_LISTEN
  | .httpsListen _ | .httpsListenNone => .HTTPS_LISTEN
  | .transientErrorIfCmd _ => .TRANSIENT_ERROR_IF_CMD
  | .refreshAtLeast _ => .REFRESH_AT_LEAST
  | .refreshBeforeExpiry _ => .REFRESH_BEFORE_EXPIRY
  | .refreshRetry _ => .REFRESH_RETRY
  | .tokenEventCmd _ => .TOKEN_EVENT_CMD

/-- The value of an account field is acceptable. -/
def AccountField.ValueOk (E : Env) : AccountField → Prop
  | .authUri s | .redirectUri s | .tokenUri s => IsHttpUri E (unescapeStr s)
  | .refreshAtLeast t | .refreshBeforeExpiry t | .refreshRetry t => ∃ d, timeStrToDuration t = .ok d
  | _ => True

/-- The value of a top-level option is acceptable. -/
def TopLevel.ValueOk : TopLevel → Prop
  | .authErrorCmd => False
  | .authNotifyInterval t | .refreshAtLeast t | .refreshBeforeExpiry t | .refreshRetry t =>
    ∃ d, timeStrToDuration t = .ok d
  | _ => True

/-- The fields of an account are valid: none twice, values acceptable, the mandatory ones there, and the login hint
not given in both ways. -/
structure FieldsValid (E : Env) (fs : List AccountField) : Prop where
  once : (fs.map AccountField.key).Nodup
  values : ∀ f ∈ fs, f.ValueOk E
  authUri : .AUTH_URI ∈ fs.map AccountField.key
  clientId : .CLIENT_ID ∈ fs.map AccountField.key
  tokenUri : .TOKEN_URI ∈ fs.map AccountField.key
  hint : ∀ h, .loginHint h ∈ fs → ∀ kvs, .authUriFields kvs ∈ fs → ∀ kv ∈ kvs, unescapeStr kv.1 ≠ "login_hint"

/-- What an account is, given its (valid) fields. -/
structure FieldsSay (fs : List AccountField) (a : Account) : Prop where
  authUri : ∃ s, .authUri s ∈ fs ∧ a.authUri = unescapeStr s
  authUriFields : (∃ kvs, .authUriFields kvs ∈ fs ∧
      a.authUriFields = kvs.map fun kv => (unescapeStr kv.1, unescapeStr kv.2)) ∨
    (.AUTH_URI_FIELDS ∉ fs.map AccountField.key ∧ a.authUriFields = [])
  clientId : ∃ s, .clientId s ∈ fs ∧ a.clientId = unescapeStr s
  clientSecret : (∃ s, .clientSecret s ∈ fs ∧ a.clientSecret = some (unescapeStr s)) ∨
    (.CLIENT_SECRET ∉ fs.map AccountField.key ∧ a.clientSecret = none)
  redirectUri : (∃ s, .redirectUri s ∈ fs ∧ a.redirectUri = unescapeStr s) ∨
    (.REDIRECT_URI ∉ fs.map AccountField.key ∧ a.redirectUri = "http://localhost/")
  refreshAtLeast : (∃ t d, .refreshAtLeast t ∈ fs ∧ timeStrToDuration t = .ok d ∧ a.refreshAtLeast = some d) ∨
    (.REFRESH_AT_LEAST ∉ fs.map AccountField.key ∧ a.refreshAtLeast = none)
  refreshBeforeExpiry :
    (∃ t d, .refreshBeforeExpiry t ∈ fs ∧ timeStrToDuration t = .ok d ∧ a.refreshBeforeExpiry = some d) ∨
    (.REFRESH_BEFORE_EXPIRY ∉ fs.map AccountField.key ∧ a.refreshBeforeExpiry = none)
  refreshRetry : (∃ t d, .refreshRetry t ∈ fs ∧ timeStrToDuration t = .ok d ∧ a.refreshRetry = some d) ∨
    (.REFRESH_RETRY ∉ fs.map AccountField.key ∧ a.refreshRetry = none)
  scopes : (∃ ss, .scopes ss ∈ fs ∧ a.scopes = ss.map unescapeStr) ∨
    (.SCOPES ∉ fs.map AccountField.key ∧ a.scopes = [])
  tokenUri : ∃ s, .tokenUri s ∈ fs ∧ a.tokenUri = unescapeStr s

/-- The account blocks of a file: name and fields. -/
def acctBlocks : List TopLevel → List (String × List AccountField)
  | [] => []
  | .account n fs :: r => (unescapeStr n, fs) :: acctBlocks r
  | _ :: r => acctBlocks r

/-- The last block for an account. -/
def lastBlock (l : List TopLevel) (n : String) : Option (List AccountField) := (acctBlocks l).reverse.lookup n

/-- The options of a file (without the account blocks). -/
def optKeys (l : List TopLevel) : List Kind := (l.map TopLevel.key).filter (· != .ACCOUNT)

/-- The redirect URI given by the fields of an account. -/
def RedirectIs (fs : List AccountField) (r : String) : Prop :=
  (∃ s, .redirectUri s ∈ fs ∧ r = unescapeStr s) ∨
    (.REDIRECT_URI ∉ fs.map AccountField.key ∧ r = "http://localhost/")

/-- A valid file: no option twice, values acceptable, at least one account, all account blocks valid, not both servers
off, and no server off which is needed for a redirect URI (going by the beginning of its text). -/
structure ConfigValid (E : Env) (l : List TopLevel) : Prop where
  once : (optKeys l).Nodup
  values : ∀ t ∈ l, t.ValueOk
  blocks : ∀ b ∈ acctBlocks l, FieldsValid E b.2
  account : acctBlocks l ≠ []
  server : ¬ (.httpListenNone ∈ l ∧ .httpsListenNone ∈ l)
  https : ∀ n fs r, lastBlock l n = some fs → RedirectIs fs r → BeginsWith r "https" → .httpsListenNone ∉ l
  http : ∀ n fs r, lastBlock l n = some fs → RedirectIs fs r → ¬ BeginsWith r "https" →
    BeginsWith r "http" → .httpListenNone ∉ l

/-- An option which is a string. -/
def StrOpt (l : List TopLevel) (mk : String → TopLevel) (k : Kind) (v : Option String) : Prop :=
  (∃ s, mk s ∈ l ∧ v = some (unescapeStr s)) ∨ (k ∉ l.map TopLevel.key ∧ v = none)

/-- An option which is a time. -/
def TimeOpt (l : List TopLevel) (mk : String → TopLevel) (k : Kind) (v : Option Dur) : Prop :=
  (∃ t d, mk t ∈ l ∧ timeStrToDuration t = .ok d ∧ v = some d) ∨ (k ∉ l.map TopLevel.key ∧ v = none)

/-- An option which says where to listen. -/
def ListenOpt (l : List TopLevel) (none_ : TopLevel) (mk : String → TopLevel) (k : Kind) (v : Option String) : Prop :=
  (∃ s, mk s ∈ l ∧ v = some (unescapeStr s)) ∨ (none_ ∈ l ∧ v = none) ∨
    (k ∉ l.map TopLevel.key ∧ v = some "127.0.0.1:0")

/-- What the configuration is, given the (valid) file. Of several blocks for one account only the last one counts. -/
structure ConfigSays (l : List TopLevel) (c : Config) : Prop where
  nodup : (c.accounts.map Prod.fst).Nodup
  names : ∀ n, n ∈ c.accounts.map Prod.fst ↔ n ∈ (acctBlocks l).map Prod.fst
  accounts : ∀ p ∈ c.accounts, ∃ fs, lastBlock l p.1 = some fs ∧ p.2.name = p.1 ∧ FieldsSay fs p.2
  authNotifyCmd : StrOpt l .authNotifyCmd .AUTH_NOTIFY_CMD c.authNotifyCmd
  authNotifyInterval : ∃ v, TimeOpt l .authNotifyInterval .AUTH_NOTIFY_INTERVAL v ∧
    c.authNotifyInterval = v.getD (15 * 60 * 1000000000)
  errorNotifyCmd : StrOpt l .errorNotifyCmd .ERROR_NOTIFY_CMD c.errorNotifyCmd
  httpListen : ListenOpt l .httpListenNone .httpListen .HTTP_LISTEN c.httpListen
  httpsListen : ListenOpt l .httpsListenNone .httpsListen .HTTPS_LISTEN c.httpsListen
  transientErrorIfCmd : StrOpt l .transientErrorIfCmd .TRANSIENT_ERROR_IF_CMD c.transientErrorIfCmd
  refreshAtLeast : TimeOpt l .refreshAtLeast .REFRESH_AT_LEAST c.refreshAtLeast
  refreshBeforeExpiry : TimeOpt l .refreshBeforeExpiry .REFRESH_BEFORE_EXPIRY c.refreshBeforeExpiry
  refreshRetry : TimeOpt l .refreshRetry .REFRESH_RETRY c.refreshRetry
  tokenEventCmd : StrOpt l .tokenEventCmd .TOKEN_EVENT_CMD c.tokenEventCmd

/-- The value of a time setting: the account's own, else the global one, else the default. -/
def Effective (l : List TopLevel) (fs : List AccountField) (own : String → AccountField) (glob : String → TopLevel)
    (k : Kind) (dflt v : Dur) : Prop :=
  (∃ t, own t ∈ fs ∧ timeStrToDuration t = .ok v) ∨
  (k ∉ fs.map AccountField.key ∧ ∃ t, glob t ∈ l ∧ timeStrToDuration t = .ok v) ∨
  (k ∉ fs.map AccountField.key ∧ k ∉ l.map TopLevel.key ∧ v = dflt)

end Pizauth

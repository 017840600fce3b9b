import Verif.Model.Prelude
import Verif.Model.Env

/-!
# Configuration (src/config.rs, src/config_ast.rs)

The concrete syntax (src/config.l, src/config.y) is in `Verif.Model.Syntax`. Here we start from the syntax
tree, in which a span is represented by the text it covers.
-/

namespace Pizauth

deriving instance DecidableEq for Except

/-- Result of a function that may return `Err` or panic, src/config.rs:50,58,599,622. -/
inductive Res (α : Type) where
  | panic
  | err (msg : String)
  | ok (a : α)
deriving DecidableEq, Repr

/-- src/config.rs:18 -/
def refreshBeforeExpiryDefault : Dur := secs 90
/-- src/config.rs:21 -/
def refreshAtLeastDefault : Dur := secs (90 * 60)
/-- src/config.rs:23 -/
def refreshRetryDefault : Dur := secs 40
/-- src/config.rs:26 -/
def authNotifyIntervalDefault : Dur := secs (15 * 60)
/-- src/config.rs:28,30 -/
def listenDefault : String := "127.0.0.1:0"

/-- `struct Account`, src/config.rs:344-357. -/
structure Account where
  name : String
  authUri : String
  authUriFields : List (String × String)
  clientId : String
  clientSecret : Option String
  redirectUri : String
  refreshAtLeast : Option Dur
  refreshBeforeExpiry : Option Dur
  refreshRetry : Option Dur
  scopes : List String
  tokenUri : String
deriving DecidableEq, Repr, Inhabited

/-- `struct AccountDump`, src/config.rs:583-592. -/
structure AccountDump where
  authUri : String
  authUriFields : List (String × String)
  clientId : String
  clientSecret : Option String
  redirectUri : String
  scopes : List String
  tokenUri : String
deriving DecidableEq, Repr, Inhabited

/-- `struct Config`, src/config.rs:32-45. `accounts` is the `HashMap`, as an association list in the map's
(arbitrary but fixed) iteration order; keys are distinct, see `Config.Ok`. -/
structure Config where
  accounts : List (String × Account)
  authNotifyCmd : Option String
  authNotifyInterval : Dur
  errorNotifyCmd : Option String
  httpListen : Option String
  httpsListen : Option String
  transientErrorIfCmd : Option String
  refreshAtLeast : Option Dur
  refreshBeforeExpiry : Option Dur
  refreshRetry : Option Dur
  tokenEventCmd : Option String
deriving DecidableEq, Repr, Inhabited

/-- `Account::secure_eq`, src/config.rs:506-519. -/
def Account.secureEq (self other : Account) : Bool :=
  self.name == other.name
    && self.authUri == other.authUri
    && self.authUriFields == other.authUriFields
    && self.clientId == other.clientId
    && self.clientSecret == other.clientSecret
    && self.redirectUri == other.redirectUri
    && self.scopes == other.scopes
    && self.tokenUri == other.tokenUri

/-- `Account::dump`, src/config.rs:521-531. -/
def Account.dump (self : Account) : AccountDump :=
  { authUri := self.authUri
    authUriFields := self.authUriFields
    clientId := self.clientId
    clientSecret := self.clientSecret
    redirectUri := self.redirectUri
    scopes := self.scopes
    tokenUri := self.tokenUri }

/-- `Account::secure_restorable`, src/config.rs:537-545. -/
def Account.secureRestorable (self : Account) (d : AccountDump) : Bool :=
  self.authUri == d.authUri
    && self.authUriFields == d.authUriFields
    && self.clientId == d.clientId
    && self.clientSecret == d.clientSecret
    && self.redirectUri == d.redirectUri
    && self.scopes == d.scopes
    && self.tokenUri == d.tokenUri

/-- `str::starts_with`, src/config.rs:293-317. -/
def startsWith (s pre : String) : Bool := pre.toList.isPrefixOf s.toList

/-- `str::to_lowercase`. Simplification: ASCII only; no non-ASCII character lower-cases to one of the letters
of "https", which is all the caller looks at, src/config.rs:293-317. -/
def toLowercase (s : String) : String := String.ofList (s.toList.map Char.toLower)

/-- `Account::redirect_uri`, src/config.rs:547-562. -/
def Account.redirectUrl (E : Env) (self : Account) (httpPort httpsPort : Option Nat) : Res Url :=
  if httpPort.isSome || httpsPort.isSome then
    match E.parseUrl self.redirectUri with
    | none => .err "url"
    | some url =>
      if httpsPort.isSome && startsWith (toLowercase self.redirectUri) "https" then
        match url.setPort httpsPort with
        | none => .err "Cannot set https port"
        | some u => .ok u
      else
        match url.setPort httpPort with
        | none => .err "Cannot set http port"
        | some u => .ok u
  else .panic

/-- `Account::refresh_at_least`, src/config.rs:564-568. -/
def Account.effRefreshAtLeast (self : Account) (config : Config) : Dur :=
  (self.refreshAtLeast.or config.refreshAtLeast).getD refreshAtLeastDefault

/-- `Account::refresh_before_expiry`, src/config.rs:570-574. -/
def Account.effRefreshBeforeExpiry (self : Account) (config : Config) : Dur :=
  (self.refreshBeforeExpiry.or config.refreshBeforeExpiry).getD refreshBeforeExpiryDefault

/-- `Account::refresh_retry`, src/config.rs:576-580. -/
def Account.effRefreshRetry (self : Account) (config : Config) : Dur :=
  (self.refreshRetry.or config.refreshRetry).getD refreshRetryDefault

/-! ## Literals -/

/-- The `while` loop of `unescape_str`, src/config.rs:629-644, on the characters after the opening quote.
The loop runs while more than the closing quote is left. -/
def unescapeLoop : List Char → List Char
  | [] => []
  | [_] => []
  | c :: c2 :: r => if c = '\\' then c2 :: unescapeLoop r else c :: unescapeLoop (c2 :: r)

/-- `unescape_str`, src/config.rs:622-646. -/
def unescapeStr (us : String) : String := String.ofList (unescapeLoop (us.toList.drop 1))

/-- Why a configuration is rejected. Simplification: the kind of the error rather than the full message
(source position and quoted line are dropped). `panic` is a panic, not an error, src/config.rs:58-341. -/
inductive ConfErr where
  | syntaxErr
  | renamed
  | dup (field : String)
  | missing (field : String)
  | badUri
  | notHttp
  | badTime
  | loginHintClash
  | bothNone
  | noAccounts
  | httpsOff (act : String)
  | httpOff (act : String)
  | panic
deriving DecidableEq, Repr

/-- Value of a non-empty string of ASCII digits, src/config.rs:607. -/
def digitsVal (ds : List Char) : Nat := ds.foldl (fun n c => n * 10 + (c.toNat - 48)) 0

/-- `str::parse::<u64>` on a digit string (`none` models `Err`: empty or too large), src/config.rs:607. -/
def parseU64 (ds : List Char) : Option Nat :=
  if ds.isEmpty || !ds.all Char.isDigit then none
  else if digitsVal ds < u64Size then some (digitsVal ds) else none

/-- `u64::checked_mul`, src/config.rs:609-611. -/
def checkedMul (a b : Nat) : Option Nat := if a * b < u64Size then some (a * b) else none

/-- `time_str_to_duration`, src/config.rs:599-618. Simplification: `char::is_numeric` is restricted to
ASCII digits (the lexer only produces `[0-9]+[dhms]`). -/
def timeStrToDuration (t : String) : Except ConfErr Dur :=
  let lastCharIdx := (t.toList.filter Char.isDigit).length
  match parseU64 (t.toList.take lastCharIdx) with
  | none => .error .badTime
  | some num =>
    match t.toList.getLast? with
    | some 'd' => match checkedMul num 86400 with
      | some s => .ok (secs s)
      | none => .error .badTime
    | some 'h' => match checkedMul num 3600 with
      | some s => .ok (secs s)
      | none => .error .badTime
    | some 'm' => match checkedMul num 60 with
      | some s => .ok (secs s)
      | none => .error .badTime
    | some 's' => .ok (secs num)
    | _ => .error .panic

/-! ## Syntax tree to configuration -/

/-- `enum AccountField`, src/config_ast.rs:20-32, spans replaced by the text they cover. -/
inductive AccountField where
  | authUri (s : String)
  | authUriFields (kvs : List (String × String))
  | clientId (s : String)
  | clientSecret (s : String)
  | loginHint (s : String)
  | redirectUri (s : String)
  | refreshAtLeast (t : String)
  | refreshBeforeExpiry (t : String)
  | refreshRetry (t : String)
  | scopes (ss : List String)
  | tokenUri (s : String)
deriving DecidableEq, Repr

/-- `enum TopLevel`, src/config_ast.rs:3-18. -/
inductive TopLevel where
  | account (name : String) (fields : List AccountField)
  | authErrorCmd
  | authNotifyCmd (s : String)
  | authNotifyInterval (t : String)
  | errorNotifyCmd (s : String)
  | httpListen (s : String)
  | httpListenNone
  | httpsListen (s : String)
  | httpsListenNone
  | transientErrorIfCmd (s : String)
  | refreshAtLeast (t : String)
  | refreshBeforeExpiry (t : String)
  | refreshRetry (t : String)
  | tokenEventCmd (s : String)
deriving DecidableEq, Repr

/-- `check_not_assigned`, src/config.rs:243-257. -/
def checkNotAssigned {T : Type} (name : String) (v : Option T) : Except ConfErr Unit :=
  match v with
  | none => .ok ()
  | some _ => .error (.dup name)

/-- `check_not_assigned_str`, src/config.rs:259-273. -/
def checkNotAssignedStr {T : Type} (name lit : String) (v : Option T) : Except ConfErr String :=
  match v with
  | none => .ok (unescapeStr lit)
  | some _ => .error (.dup name)

/-- `check_not_assigned_time`, src/config.rs:275-289. -/
def checkNotAssignedTime {T : Type} (name lit : String) (v : Option T) : Except ConfErr String :=
  match v with
  | none => .ok lit
  | some _ => .error (.dup name)

/-- `check_not_assigned_uri`, src/config.rs:291-317. -/
def checkNotAssignedUri {T : Type} (E : Env) (name lit : String) (v : Option T) :
    Except ConfErr String :=
  match v with
  | none =>
    let s := unescapeStr lit
    match E.parseUrl s with
    | some x => if x.scheme = "http" ∨ x.scheme = "https" then .ok s else .error .notHttp
    | none => .error .badUri
  | some _ => .error (.dup name)

/-- `check_assigned`, src/config.rs:319-333. -/
def checkAssigned {T : Type} (name : String) (v : Option T) : Except ConfErr T :=
  match v with
  | some x => .ok x
  | none => .error (.missing name)

/-- The local variables of `Account::from_fields`, src/config.rs:366-376. -/
structure FieldAcc where
  authUri : Option String := none
  authUriFields : Option (List (String × String)) := none
  clientId : Option String := none
  clientSecret : Option String := none
  loginHint : Option String := none
  redirectUri : Option String := none
  refreshAtLeast : Option Dur := none
  refreshBeforeExpiry : Option Dur := none
  refreshRetry : Option Dur := none
  scopes : Option (List String) := none
  tokenUri : Option String := none
deriving DecidableEq, Repr

/-- Body of the `for f in fields` loop of `Account::from_fields`, src/config.rs:378-471. -/
def fieldStep (E : Env) (s : FieldAcc) (f : AccountField) : Except ConfErr FieldAcc :=
  match f with
  | .authUri lit => do
    let u ← checkNotAssignedUri E "auth_uri" lit s.authUri
    return { s with authUri := some u }
  | .authUriFields kvs =>
    if s.authUriFields.isSome then .error (.dup "auth_uri_fields")
    else .ok { s with authUriFields := some (kvs.map fun (k, v) => (unescapeStr k, unescapeStr v)) }
  | .clientId lit => do
    let x ← checkNotAssignedStr "client_id" lit s.clientId
    return { s with clientId := some x }
  | .clientSecret lit => do
    let x ← checkNotAssignedStr "client_secret" lit s.clientSecret
    return { s with clientSecret := some x }
  | .loginHint lit => do
    let x ← checkNotAssignedStr "login_hint" lit s.loginHint
    return { s with loginHint := some x }
  | .redirectUri lit => do
    let u ← checkNotAssignedUri E "redirect_uri" lit s.redirectUri
    return { s with redirectUri := some u }
  | .refreshAtLeast lit => do
    let t ← checkNotAssignedTime "refresh_at_least" lit s.refreshAtLeast
    let d ← timeStrToDuration t
    return { s with refreshAtLeast := some d }
  | .refreshBeforeExpiry lit => do
    let t ← checkNotAssignedTime "refresh_before_expiry" lit s.refreshBeforeExpiry
    let d ← timeStrToDuration t
    return { s with refreshBeforeExpiry := some d }
  | .refreshRetry lit => do
    let t ← checkNotAssignedTime "refresh_retry" lit s.refreshRetry
    let d ← timeStrToDuration t
    return { s with refreshRetry := some d }
  | .scopes lits =>
    if s.scopes.isSome then .error (.dup "scopes")
    else .ok { s with scopes := some (lits.map unescapeStr) }
  | .tokenUri lit => do
    let u ← checkNotAssignedUri E "token_uri" lit s.tokenUri
    return { s with tokenUri := some u }

/-- `Account::from_fields`, src/config.rs:360-498. -/
def Account.fromFields (E : Env) (name : String) (fields : List AccountField) :
    Except ConfErr Account := do
  let s ← fields.foldlM (fieldStep E) {}
  let authUri ← checkAssigned "auth_uri" s.authUri
  let clientId ← checkAssigned "client_id" s.clientId
  let tokenUri ← checkAssigned "token_uri" s.tokenUri
  if s.loginHint.isSome ∧ ((s.authUriFields.getD []).any fun (k, _) => k == "login_hint") then
    throw .loginHintClash
  return { name := name
           authUri := authUri
           authUriFields := s.authUriFields.getD []
           clientId := clientId
           clientSecret := s.clientSecret
           redirectUri := s.redirectUri.getD "http://localhost/"
           refreshAtLeast := s.refreshAtLeast
           refreshBeforeExpiry := s.refreshBeforeExpiry
           refreshRetry := s.refreshRetry
           scopes := s.scopes.getD []
           tokenUri := tokenUri }

/-- The local variables of `Config::from_str`, src/config.rs:70-80. The outer `Option` of `httpListen` is
"assigned?", the inner one "none or an address". -/
structure ConfAcc where
  accounts : List (String × Account) := []
  authNotifyCmd : Option String := none
  authNotifyInterval : Option Dur := none
  errorNotifyCmd : Option String := none
  httpListen : Option (Option String) := none
  httpsListen : Option (Option String) := none
  transientErrorIfCmd : Option String := none
  refreshAtLeast : Option Dur := none
  refreshBeforeExpiry : Option Dur := none
  refreshRetry : Option Dur := none
  tokenEventCmd : Option String := none
deriving DecidableEq, Repr

/-- `HashMap::insert`: replaces the value of an existing key, src/config.rs:87-95. -/
def insertAcct (l : List (String × Account)) (k : String) (v : Account) : List (String × Account) :=
  if l.any (fun p => p.1 == k) then l.map (fun p => if p.1 == k then (k, v) else p)
  else l ++ [(k, v)]

/-- Body of the `for opt in opts` loop of `Config::from_str`, src/config.rs:83-195. -/
def topStep (E : Env) (s : ConfAcc) (t : TopLevel) : Except ConfErr ConfAcc :=
  match t with
  | .account name fields => do
    let actName := unescapeStr name
    let a ← Account.fromFields E actName fields
    return { s with accounts := insertAcct s.accounts actName a }
  | .authErrorCmd => .error .renamed
  | .authNotifyCmd lit => do
    let x ← checkNotAssignedStr "auth_notify_cmd" lit s.authNotifyCmd
    return { s with authNotifyCmd := some x }
  | .authNotifyInterval lit => do
    let t ← checkNotAssignedTime "auth_notify_interval" lit s.authNotifyInterval
    let d ← timeStrToDuration t
    return { s with authNotifyInterval := some d }
  | .errorNotifyCmd lit => do
    let x ← checkNotAssignedStr "error_notify_cmd" lit s.errorNotifyCmd
    return { s with errorNotifyCmd := some x }
  | .httpListen lit => do
    let x ← checkNotAssignedStr "http_listen" lit s.httpListen
    return { s with httpListen := some (some x) }
  | .httpListenNone => do
    checkNotAssigned "http_listen" s.httpListen
    return { s with httpListen := some none }
  | .httpsListen lit => do
    let x ← checkNotAssignedStr "https_listen" lit s.httpsListen
    return { s with httpsListen := some (some x) }
  | .httpsListenNone => do
    checkNotAssigned "https_listen" s.httpsListen
    return { s with httpsListen := some none }
  | .transientErrorIfCmd lit => do
    let x ← checkNotAssignedStr "transient_error_if_cmd" lit s.transientErrorIfCmd
    return { s with transientErrorIfCmd := some x }
  | .refreshAtLeast lit => do
    let t ← checkNotAssignedTime "refresh_at_least" lit s.refreshAtLeast
    let d ← timeStrToDuration t
    return { s with refreshAtLeast := some d }
  | .refreshBeforeExpiry lit => do
    let t ← checkNotAssignedTime "refresh_before_expiry" lit s.refreshBeforeExpiry
    let d ← timeStrToDuration t
    return { s with refreshBeforeExpiry := some d }
  | .refreshRetry lit => do
    let t ← checkNotAssignedTime "refresh_retry" lit s.refreshRetry
    let d ← timeStrToDuration t
    return { s with refreshRetry := some d }
  | .tokenEventCmd lit => do
    let x ← checkNotAssignedStr "token_event_cmd" lit s.tokenEventCmd
    return { s with tokenEventCmd := some x }

/-- Body of the loop over accounts at src/config.rs:208-224. -/
def checkListen (httpListen httpsListen : Option (Option String)) (p : String × Account) :
    Except ConfErr Unit :=
  if startsWith p.2.redirectUri "https" then
    if httpsListen = some none then .error (.httpsOff p.1) else .ok ()
  else if startsWith p.2.redirectUri "http" then
    if httpListen = some none then .error (.httpOff p.1) else .ok ()
  else .ok ()

/-- `Config::from_str` from the syntax tree on, src/config.rs:70-240. Simplification: the accounts are listed
in order of first appearance; the real order is that of a `HashMap` (see `Config.Ok`, which is insensitive
to the order). -/
def Config.fromAst (E : Env) (opts : List TopLevel) : Except ConfErr Config := do
  let s ← opts.foldlM (topStep E) {}
  if s.httpListen = some none ∧ s.httpsListen = some none then throw .bothNone
  if s.accounts.isEmpty then throw .noAccounts
  s.accounts.forM (checkListen s.httpListen s.httpsListen)
  return { accounts := s.accounts
           authNotifyCmd := s.authNotifyCmd
           authNotifyInterval := s.authNotifyInterval.getD authNotifyIntervalDefault
           errorNotifyCmd := s.errorNotifyCmd
           httpListen := s.httpListen.getD (some listenDefault)
           httpsListen := s.httpsListen.getD (some listenDefault)
           transientErrorIfCmd := s.transientErrorIfCmd
           refreshAtLeast := s.refreshAtLeast
           refreshBeforeExpiry := s.refreshBeforeExpiry
           refreshRetry := s.refreshRetry
           tokenEventCmd := s.tokenEventCmd }

/-- What the rest of the daemon relies on about a `Config` (all accepted configurations satisfy it, in any
iteration order: `Verif.Props.Config`): the keys of the `HashMap` are distinct and each account is
stored under its own name; there is an account; at least one of the two servers is on; all URIs are
HTTP(S) URIs, src/config.rs:58-241. -/
structure Config.Ok (E : Env) (c : Config) : Prop where
  nodup : (c.accounts.map Prod.fst).Nodup
  names : ∀ p ∈ c.accounts, p.2.name = p.1
  nonempty : c.accounts ≠ []
  server : c.httpListen.isSome ∨ c.httpsListen.isSome
  uris : ∀ p ∈ c.accounts, E.isHttpUri p.2.authUri ∧ E.isHttpUri p.2.redirectUri ∧
    E.isHttpUri p.2.tokenUri

instance (E : Env) (c : Config) : Decidable (c.Ok E) :=
  decidable_of_iff
    ((c.accounts.map Prod.fst).Nodup ∧ (∀ p ∈ c.accounts, p.2.name = p.1) ∧ c.accounts ≠ [] ∧
      (c.httpListen.isSome ∨ c.httpsListen.isSome) ∧
      ∀ p ∈ c.accounts, E.isHttpUri p.2.authUri ∧ E.isHttpUri p.2.redirectUri ∧
        E.isHttpUri p.2.tokenUri)
    ⟨fun h => ⟨h.1, h.2.1, h.2.2.1, h.2.2.2.1, h.2.2.2.2⟩, fun h => ⟨h.1, h.2, h.3, h.4, h.5⟩⟩

end Pizauth

import Verif.Model.Syntax
import Verif.Spec.Literals

/-!
# Specification: the grammar of the configuration file, rule by rule as in src/config.y

`G… ts x`: the tokens `ts` can be derived from the nonterminal, with the value `x`.
-/

namespace Pizauth

/-- src/config.y:59-67 -/
inductive GScopes : List Tok → List String → Prop where
  | more {ts ss c s} : GScopes ts ss → GScopes (ts ++ [⟨.COMMA, c⟩, ⟨.STRING, s⟩]) (ss ++ [s])
  | one {s} : GScopes [⟨.STRING, s⟩] [s]
  | empty : GScopes [] []

/-- src/config.y:49-57 -/
inductive GAuthUriFields : List Tok → List (String × String) → Prop where
  | more {ts kvs c k d v} : GAuthUriFields ts kvs →
      GAuthUriFields (ts ++ [⟨.COMMA, c⟩, ⟨.STRING, k⟩, ⟨.COLON, d⟩, ⟨.STRING, v⟩]) (kvs ++ [(k, v)])
  | one {k d v} : GAuthUriFields [⟨.STRING, k⟩, ⟨.COLON, d⟩, ⟨.STRING, v⟩] [(k, v)]
  | empty : GAuthUriFields [] []

/-- src/config.y:35-47 -/
inductive GAccountField : List Tok → AccountField → Prop where
  | authUri {a b s d} : GAccountField [⟨.AUTH_URI, a⟩, ⟨.EQ, b⟩, ⟨.STRING, s⟩, ⟨.SEMI, d⟩] (.authUri s)
  | authUriFields {a b c ts kvs d e} : GAuthUriFields ts kvs →
      GAccountField ([⟨.AUTH_URI_FIELDS, a⟩, ⟨.EQ, b⟩, ⟨.LBRACE, c⟩] ++ ts ++ [⟨.RBRACE, d⟩, ⟨.SEMI, e⟩])
        (.authUriFields kvs)
  | clientId {a b s d} : GAccountField [⟨.CLIENT_ID, a⟩, ⟨.EQ, b⟩, ⟨.STRING, s⟩, ⟨.SEMI, d⟩] (.clientId s)
  | clientSecret {a b s d} : GAccountField [⟨.CLIENT_SECRET, a⟩, ⟨.EQ, b⟩, ⟨.STRING, s⟩, ⟨.SEMI, d⟩] (.clientSecret s)
  | loginHint {a b s d} : GAccountField [⟨.LOGIN_HINT, a⟩, ⟨.EQ, b⟩, ⟨.STRING, s⟩, ⟨.SEMI, d⟩] (.loginHint s)
  | redirectUri {a b s d} : GAccountField [⟨.REDIRECT_URI, a⟩, ⟨.EQ, b⟩, ⟨.STRING, s⟩, ⟨.SEMI, d⟩] (.redirectUri s)
  | refreshAtLeast {a b s d} :
      GAccountField [⟨.REFRESH_AT_LEAST, a⟩, ⟨.EQ, b⟩, ⟨.TIME, s⟩, ⟨.SEMI, d⟩] (.refreshAtLeast s)
  | refreshBeforeExpiry {a b s d} :
      GAccountField [⟨.REFRESH_BEFORE_EXPIRY, a⟩, ⟨.EQ, b⟩, ⟨.TIME, s⟩, ⟨.SEMI, d⟩] (.refreshBeforeExpiry s)
  | refreshRetry {a b s d} :
      GAccountField [⟨.REFRESH_RETRY, a⟩, ⟨.EQ, b⟩, ⟨.TIME, s⟩, ⟨.SEMI, d⟩] (.refreshRetry s)
  | scopes {a b c ts ss d e} : GScopes ts ss →
      GAccountField ([⟨.SCOPES, a⟩, ⟨.EQ, b⟩, ⟨.LBRACKET, c⟩] ++ ts ++ [⟨.RBRACKET, d⟩, ⟨.SEMI, e⟩]) (.scopes ss)
  | tokenUri {a b s d} : GAccountField [⟨.TOKEN_URI, a⟩, ⟨.EQ, b⟩, ⟨.STRING, s⟩, ⟨.SEMI, d⟩] (.tokenUri s)

/-- src/config.y:30-33 -/
inductive GAccountFields : List Tok → List AccountField → Prop where
  | more {ts fs t f} : GAccountFields ts fs → GAccountField t f → GAccountFields (ts ++ t) (fs ++ [f])
  | empty : GAccountFields [] []

/-- src/config.y:13-28 -/
inductive GTopLevel : List Tok → TopLevel → Prop where
  | account {a n b ts fs c} : GAccountFields ts fs →
      GTopLevel ([⟨.ACCOUNT, a⟩, ⟨.STRING, n⟩, ⟨.LBRACE, b⟩] ++ ts ++ [⟨.RBRACE, c⟩]) (.account n fs)
  | authErrorCmd {a b s d} : GTopLevel [⟨.AUTH_ERROR_CMD, a⟩, ⟨.EQ, b⟩, ⟨.STRING, s⟩, ⟨.SEMI, d⟩] .authErrorCmd
  | authNotifyCmd {a b s d} :
      GTopLevel [⟨.AUTH_NOTIFY_CMD, a⟩, ⟨.EQ, b⟩, ⟨.STRING, s⟩, ⟨.SEMI, d⟩] (.authNotifyCmd s)
  | authNotifyInterval {a b s d} :
      GTopLevel [⟨.AUTH_NOTIFY_INTERVAL, a⟩, ⟨.EQ, b⟩, ⟨.TIME, s⟩, ⟨.SEMI, d⟩] (.authNotifyInterval s)
  | errorNotifyCmd {a b s d} :
      GTopLevel [⟨.ERROR_NOTIFY_CMD, a⟩, ⟨.EQ, b⟩, ⟨.STRING, s⟩, ⟨.SEMI, d⟩] (.errorNotifyCmd s)
  | httpListenNone {a b s d} : GTopLevel [⟨.HTTP_LISTEN, a⟩, ⟨.EQ, b⟩, ⟨.NONE, s⟩, ⟨.SEMI, d⟩] .httpListenNone
  | httpListen {a b s d} : GTopLevel [⟨.HTTP_LISTEN, a⟩, ⟨.EQ, b⟩, ⟨.STRING, s⟩, ⟨.SEMI, d⟩] (.httpListen s)
  | httpsListenNone {a b s d} : GTopLevel [⟨.HTTPS_LISTEN, a⟩, ⟨.EQ, b⟩, ⟨.NONE, s⟩, ⟨.SEMI, d⟩] .httpsListenNone
  | httpsListen {a b s d} : GTopLevel [⟨.HTTPS_LISTEN, a⟩, ⟨.EQ, b⟩, ⟨.STRING, s⟩, ⟨.SEMI, d⟩] (.httpsListen s)
  | transientErrorIfCmd {a b s d} :
      GTopLevel [⟨.TRANSIENT_ERROR_IF_CMD, a⟩, ⟨.EQ, b⟩, ⟨.STRING, s⟩, ⟨.SEMI, d⟩] (.transientErrorIfCmd s)
  | refreshAtLeast {a b s d} :
      GTopLevel [⟨.REFRESH_AT_LEAST, a⟩, ⟨.EQ, b⟩, ⟨.TIME, s⟩, ⟨.SEMI, d⟩] (.refreshAtLeast s)
  | refreshBeforeExpiry {a b s d} :
      GTopLevel [⟨.REFRESH_BEFORE_EXPIRY, a⟩, ⟨.EQ, b⟩, ⟨.TIME, s⟩, ⟨.SEMI, d⟩] (.refreshBeforeExpiry s)
  | refreshRetry {a b s d} :
      GTopLevel [⟨.REFRESH_RETRY, a⟩, ⟨.EQ, b⟩, ⟨.TIME, s⟩, ⟨.SEMI, d⟩] (.refreshRetry s)
  | tokenEventCmd {a b s d} :
      GTopLevel [⟨.TOKEN_EVENT_CMD, a⟩, ⟨.EQ, b⟩, ⟨.STRING, s⟩, ⟨.SEMI, d⟩] (.tokenEventCmd s)

/-- src/config.y:8-11 -/
inductive GTopLevels : List Tok → List TopLevel → Prop where
  | more {ts l t x} : GTopLevels ts l → GTopLevel t x → GTopLevels (ts ++ t) (l ++ [x])
  | empty : GTopLevels [] []

/-! ## Texts of tokens -/

/-- A string literal. -/
def IsStrLit (t : String) : Prop := ∃ v : String, t = quoteStr v

/-- A time literal. -/
def IsTimeLit (t : String) : Prop :=
  ∃ ds u k, t = String.ofList (ds ++ [u]) ∧ ds ≠ [] ∧ (∀ c ∈ ds, '0' ≤ c ∧ c ≤ '9') ∧ unitSecs u = some k

/-- The text of tokens which always have the same one. -/
def fixedText : Kind → Option String
  | .EQ => some "="
  | .COMMA => some ","
  | .LBRACE => some "{"
  | .RBRACE => some "}"
  | .LBRACKET => some "["
  | .RBRACKET => some "]"
  | .SEMI => some ";"
  | .COLON => some ":"
  | .ACCOUNT => some "account"
  | .AUTH_ERROR_CMD => some "auth_error_cmd"
  | .AUTH_NOTIFY_CMD => some "auth_notify_cmd"
  | .AUTH_NOTIFY_INTERVAL => some "auth_notify_interval"
  | .AUTH_URI => some "auth_uri"
  | .AUTH_URI_FIELDS => some "auth_uri_fields"
  | .CLIENT_ID => some "client_id"
  | .CLIENT_SECRET => some "client_secret"
  | .ERROR_NOTIFY_CMD => some "error_notify_cmd"
  | .HTTP_LISTEN => some "http_listen"
  | .HTTPS_LISTEN => some "https_listen"
  | .LOGIN_HINT => some "login_hint"
  | .NONE => some "none"
  | .REFRESH_RETRY => some "refresh_retry"
  | .REDIRECT_URI => some "redirect_uri"
  | .REFRESH_BEFORE_EXPIRY => some "refresh_before_expiry"
  | .REFRESH_AT_LEAST => some "refresh_at_least"
  | .SCOPES => some "scopes"
  | .TOKEN_EVENT_CMD => some "token_event_cmd"
  | .TOKEN_URI => some "token_uri"
  | .TRANSIENT_ERROR_IF_CMD => some "transient_error_if_cmd"
  | .TIME | .INT | .STRING | .skip | .UNMATCHED => none

/-- A token that can be written. -/
inductive TokOk : Tok → Prop where
  | str {t} : IsStrLit t → TokOk ⟨.STRING, t⟩
  | time {t} : IsTimeLit t → TokOk ⟨.TIME, t⟩
  | fixed {k t} : fixedText k = some t → TokOk ⟨k, t⟩

/-- The literals in an account field are literals. -/
def AccountField.Lits : AccountField → Prop
  | .authUri s | .clientId s | .clientSecret s | .loginHint s | .redirectUri s | .tokenUri s => IsStrLit s
  | .authUriFields kvs => ∀ kv ∈ kvs, IsStrLit kv.1 ∧ IsStrLit kv.2
  | .scopes ss => ∀ s ∈ ss, IsStrLit s
  | .refreshAtLeast t | .refreshBeforeExpiry t | .refreshRetry t => IsTimeLit t

/-- The literals in a syntax tree are literals. -/
def TopLevel.Lits : TopLevel → Prop
  | .account n fs => IsStrLit n ∧ ∀ f ∈ fs, f.Lits
  | .authErrorCmd | .httpListenNone | .httpsListenNone => True
  | .authNotifyCmd s | .errorNotifyCmd s | .httpListen s | .httpsListen s | .transientErrorIfCmd s
  | .tokenEventCmd s => IsStrLit s
  | .authNotifyInterval t | .refreshAtLeast t | .refreshBeforeExpiry t | .refreshRetry t => IsTimeLit t

end Pizauth

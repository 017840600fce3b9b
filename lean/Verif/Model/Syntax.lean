import Verif.Model.Config

/-!
# Concrete syntax of the configuration file (src/config.l, src/config.y)

The lexer generator takes the longest match of all rules, the first rule in case of a tie; its regular expressions
are compiled such that `.` matches every character and `$` matches at the end of every line. The parser generator
accepts the language of the grammar, and reports an error for every other input (error recovery only serves to
report more than one error).
-/

namespace Pizauth

/-- The names of the tokens, src/config.l:2-36. `skip` stands for `;` in the place of the name: no token. -/
inductive Kind where
  | TIME | INT | STRING | EQ | COMMA | LBRACE | RBRACE | LBRACKET | RBRACKET | SEMI | COLON | ACCOUNT
  | AUTH_ERROR_CMD | AUTH_NOTIFY_CMD | AUTH_NOTIFY_INTERVAL | AUTH_URI | AUTH_URI_FIELDS | CLIENT_ID
  | CLIENT_SECRET | ERROR_NOTIFY_CMD | HTTP_LISTEN | HTTPS_LISTEN | LOGIN_HINT | NONE | REFRESH_RETRY
  | REDIRECT_URI | REFRESH_BEFORE_EXPIRY | REFRESH_AT_LEAST | SCOPES | TOKEN_EVENT_CMD | TOKEN_URI
  | TRANSIENT_ERROR_IF_CMD | skip | UNMATCHED
deriving DecidableEq, Repr

/-- A token and the text it covers, src/config.l:2-36. -/
structure Tok where
  kind : Kind
  text : String
deriving DecidableEq, Repr

/-- `[0-9]`, src/config.l:2-3. -/
def isDigit09 (c : Char) : Bool := decide ('0' ≤ c) && decide (c ≤ '9')

/-- Length of the match of `[0-9]+` at the beginning of the input, src/config.l:3. -/
def matchInt (i : List Char) : Option Nat :=
  match (i.takeWhile isDigit09).length with
  | 0 => none
  | n + 1 => some (n + 1)

/-- `[0-9]+[dhms]`, src/config.l:2. -/
def matchTime (i : List Char) : Option Nat :=
  match matchInt i with
  | none => none
  | some n =>
    match i.drop n with
    | [] => none
    | c :: _ => if c = 'd' ∨ c = 'h' ∨ c = 'm' ∨ c = 's' then some (n + 1) else none

/-- `(?:\\[\\"]|[^"\\])*"`: the rest of a string after its opening quote, src/config.l:4. -/
def matchStrRest : List Char → Option Nat
  | [] => none
  | c :: r =>
    if c = '"' then some 1
    else if c = '\\' then
      match r with
      | [] => none
      | c2 :: r2 => if c2 = '\\' ∨ c2 = '"' then (matchStrRest r2).map (· + 2) else none
    else (matchStrRest r).map (· + 1)

/-- `"(?:\\[\\"]|[^"\\])*"`, src/config.l:4. -/
def matchStr (i : List Char) : Option Nat :=
  match i with
  | [] => none
  | c :: r => if c = '"' then (matchStrRest r).map (· + 1) else none

/-- A literal text, src/config.l:5-33. -/
def matchLit (s : String) (i : List Char) : Option Nat := if s.toList.isPrefixOf i then some s.toList.length else none

/-- `//.*?$`, src/config.l:34. -/
def matchComment (i : List Char) : Option Nat :=
  if "//".toList.isPrefixOf i then some (i.takeWhile (· != '\n')).length else none

/-- `[ \t\n\r]`, src/config.l:35. -/
def isBlankChar (c : Char) : Bool := c == ' ' || c == '\t' || c == '\n' || c == '\r'

/-- `[ \t\n\r]+`, src/config.l:35. -/
def matchBlank (i : List Char) : Option Nat :=
  match (i.takeWhile isBlankChar).length with
  | 0 => none
  | n + 1 => some (n + 1)

/-- `.`, src/config.l:36. -/
def matchAny (i : List Char) : Option Nat :=
  match i with
  | [] => none
  | _ :: _ => some 1

/-- The rules, src/config.l:2-36. -/
def lexRules : List (Kind × (List Char → Option Nat)) :=
  [(.TIME, matchTime),
   (.INT, matchInt),
   (.STRING, matchStr),
   (.EQ, matchLit "="),
   (.COMMA, matchLit ","),
   (.LBRACE, matchLit "{"),
   (.RBRACE, matchLit "}"),
   (.LBRACKET, matchLit "["),
   (.RBRACKET, matchLit "]"),
   (.SEMI, matchLit ";"),
   (.COLON, matchLit ":"),
   (.ACCOUNT, matchLit "account"),
   (.AUTH_ERROR_CMD, matchLit "auth_error_cmd"),
   (.AUTH_NOTIFY_CMD, matchLit "auth_notify_cmd"),
   (.AUTH_NOTIFY_INTERVAL, matchLit "auth_notify_interval"),
   (.AUTH_URI, matchLit "auth_uri"),
   (.AUTH_URI_FIELDS, matchLit "auth_uri_fields"),
   (.CLIENT_ID, matchLit "client_id"),
   (.CLIENT_SECRET, matchLit "client_secret"),
   (.ERROR_NOTIFY_CMD, matchLit "error_notify_cmd"),
   (.HTTP_LISTEN, matchLit "http_listen"),
   (.HTTPS_LISTEN, matchLit "https_listen"),
   (.LOGIN_HINT, matchLit "login_hint"),
   (.NONE, matchLit "none"),
   (.REFRESH_RETRY, matchLit "refresh_retry"),
   (.REDIRECT_URI, matchLit "redirect_uri"),
   (.REFRESH_BEFORE_EXPIRY, matchLit "refresh_before_expiry"),
   (.REFRESH_AT_LEAST, matchLit "refresh_at_least"),
   (.SCOPES, matchLit "scopes"),
   (.TOKEN_EVENT_CMD, matchLit "token_event_cmd"),
   (.TOKEN_URI, matchLit "token_uri"),
   (.TRANSIENT_ERROR_IF_CMD, matchLit "transient_error_if_cmd"),
   (.skip, matchComment),
   (.skip, matchBlank),
   (.UNMATCHED, matchAny)]

/-- The longest match; the first rule in case of a tie, src/config.l:2-36. -/
def longest (i : List Char) : List (Kind × (List Char → Option Nat)) → Option (Kind × Nat) → Option (Kind × Nat)
  | [], best => best
  | (k, m) :: r, best =>
    longest i r (match m i, best with
      | some n, none => some (k, n)
      | some n, some (k0, n0) => if n > n0 then some (k, n) else some (k0, n0)
      | none, b => b)

/-- `lexer.iter()`; `fuel` is at least the length of the input. (Some rule matches every non-empty input, so there are
no lexing errors.) src/config.l:2-36. -/
def lexLoop : Nat → List Char → List Tok
  | 0, _ => []
  | fuel + 1, i =>
    match longest i lexRules none with
    | none => []
    | some (k, n) =>
      if k = .skip then lexLoop fuel (i.drop n)
      else ⟨k, String.ofList (i.take n)⟩ :: lexLoop fuel (i.drop n)

/-- The tokens of a file, src/config.l:2-36. -/
def lex (s : String) : List Tok := lexLoop s.toList.length s.toList

/-! ## The grammar -/

/-- `Scopes` after its first element: `"," "STRING"`, src/config.y:59-67. -/
def parseScopesRest : List Tok → List String × List Tok
  | ⟨.COMMA, _⟩ :: ⟨.STRING, s⟩ :: r => ((s :: (parseScopesRest r).1), (parseScopesRest r).2)
  | ts => ([], ts)

/-- `Scopes`, src/config.y:59-67. The first element may be missing. -/
def parseScopes : List Tok → List String × List Tok
  | ⟨.STRING, s⟩ :: r => ((s :: (parseScopesRest r).1), (parseScopesRest r).2)
  | ts => parseScopesRest ts

/-- `AuthUriFields` after its first element, src/config.y:49-57. -/
def parsePairsRest : List Tok → List (String × String) × List Tok
  | ⟨.COMMA, _⟩ :: ⟨.STRING, k⟩ :: ⟨.COLON, _⟩ :: ⟨.STRING, v⟩ :: r =>
    (((k, v) :: (parsePairsRest r).1), (parsePairsRest r).2)
  | ts => ([], ts)

/-- `AuthUriFields`, src/config.y:49-57. -/
def parsePairs : List Tok → List (String × String) × List Tok
  | ⟨.STRING, k⟩ :: ⟨.COLON, _⟩ :: ⟨.STRING, v⟩ :: r => (((k, v) :: (parsePairsRest r).1), (parsePairsRest r).2)
  | ts => parsePairsRest ts

/-- `AccountField`, src/config.y:35-47. -/
def parseField : List Tok → Option (AccountField × List Tok)
  | ⟨.AUTH_URI, _⟩ :: ⟨.EQ, _⟩ :: ⟨.STRING, s⟩ :: ⟨.SEMI, _⟩ :: r => some (.authUri s, r)
  | ⟨.AUTH_URI_FIELDS, _⟩ :: ⟨.EQ, _⟩ :: ⟨.LBRACE, _⟩ :: r =>
    match parsePairs r with
    | (kvs, ⟨.RBRACE, _⟩ :: ⟨.SEMI, _⟩ :: r') => some (.authUriFields kvs, r')
    | _ => none
  | ⟨.CLIENT_ID, _⟩ :: ⟨.EQ, _⟩ :: ⟨.STRING, s⟩ :: ⟨.SEMI, _⟩ :: r => some (.clientId s, r)
  | ⟨.CLIENT_SECRET, _⟩ :: ⟨.EQ, _⟩ :: ⟨.STRING, s⟩ :: ⟨.SEMI, _⟩ :: r => some (.clientSecret s, r)
  | ⟨.LOGIN_HINT, _⟩ :: ⟨.EQ, _⟩ :: ⟨.STRING, s⟩ :: ⟨.SEMI, _⟩ :: r => some (.loginHint s, r)
  | ⟨.REDIRECT_URI, _⟩ :: ⟨.EQ, _⟩ :: ⟨.STRING, s⟩ :: ⟨.SEMI, _⟩ :: r => some (.redirectUri s, r)
  | ⟨.REFRESH_AT_LEAST, _⟩ :: ⟨.EQ, _⟩ :: ⟨.TIME, s⟩ :: ⟨.SEMI, _⟩ :: r => some (.refreshAtLeast s, r)
  | ⟨.REFRESH_BEFORE_EXPIRY, _⟩ :: ⟨.EQ, _⟩ :: ⟨.TIME, s⟩ :: ⟨.SEMI, _⟩ :: r => some (.refreshBeforeExpiry s, r)
  | ⟨.REFRESH_RETRY, _⟩ :: ⟨.EQ, _⟩ :: ⟨.TIME, s⟩ :: ⟨.SEMI, _⟩ :: r => some (.refreshRetry s, r)
  | ⟨.SCOPES, _⟩ :: ⟨.EQ, _⟩ :: ⟨.LBRACKET, _⟩ :: r =>
    match parseScopes r with
    | (ss, ⟨.RBRACKET, _⟩ :: ⟨.SEMI, _⟩ :: r') => some (.scopes ss, r')
    | _ => none
  | ⟨.TOKEN_URI, _⟩ :: ⟨.EQ, _⟩ :: ⟨.STRING, s⟩ :: ⟨.SEMI, _⟩ :: r => some (.tokenUri s, r)
  | _ => none

/-- `AccountFields`, src/config.y:30-33, as many as there are; `fuel` is at least the number of tokens. -/
def parseFields : Nat → List Tok → List AccountField × List Tok
  | 0, ts => ([], ts)
  | fuel + 1, ts =>
    match parseField ts with
    | none => ([], ts)
    | some (f, r) => ((f :: (parseFields fuel r).1), (parseFields fuel r).2)

/-- `TopLevel`, src/config.y:13-28. -/
def parseTopLevel : List Tok → Option (TopLevel × List Tok)
  | ⟨.ACCOUNT, _⟩ :: ⟨.STRING, n⟩ :: ⟨.LBRACE, _⟩ :: r =>
    match parseFields r.length r with
    | (fs, ⟨.RBRACE, _⟩ :: r') => some (.account n fs, r')
    | _ => none
  | ⟨.AUTH_ERROR_CMD, _⟩ :: ⟨.EQ, _⟩ :: ⟨.STRING, _⟩ :: ⟨.SEMI, _⟩ :: r => some (.authErrorCmd, r)
  | ⟨.AUTH_NOTIFY_CMD, _⟩ :: ⟨.EQ, _⟩ :: ⟨.STRING, s⟩ :: ⟨.SEMI, _⟩ :: r => some (.authNotifyCmd s, r)
  | ⟨.AUTH_NOTIFY_INTERVAL, _⟩ :: ⟨.EQ, _⟩ :: ⟨.TIME, s⟩ :: ⟨.SEMI, _⟩ :: r => some (.authNotifyInterval s, r)
  | ⟨.ERROR_NOTIFY_CMD, _⟩ :: ⟨.EQ, _⟩ :: ⟨.STRING, s⟩ :: ⟨.SEMI, _⟩ :: r => some (.errorNotifyCmd s, r)
  | ⟨.HTTP_LISTEN, _⟩ :: ⟨.EQ, _⟩ :: ⟨.NONE, _⟩ :: ⟨.SEMI, _⟩ :: r => some (.httpListenNone, r)
  | ⟨.HTTP_LISTEN, _⟩ :: ⟨.EQ, _⟩ :: ⟨.STRING, s⟩ :: ⟨.SEMI, _⟩ :: r => some (.httpListen s, r)
  | ⟨.HTTPS_LISTEN, _⟩ :: ⟨.EQ, _⟩ :: ⟨.NONE, _⟩ :: ⟨.SEMI, _⟩ :: r => some (.httpsListenNone, r)
  | ⟨.HTTPS_LISTEN, _⟩ :: ⟨.EQ, _⟩ :: ⟨.STRING, s⟩ :: ⟨.SEMI, _⟩ :: r => some (.httpsListen s, r)
  | ⟨.TRANSIENT_ERROR_IF_CMD, _⟩ :: ⟨.EQ, _⟩ :: ⟨.STRING, s⟩ :: ⟨.SEMI, _⟩ :: r => some (.transientErrorIfCmd s, r)
  | ⟨.REFRESH_AT_LEAST, _⟩ :: ⟨.EQ, _⟩ :: ⟨.TIME, s⟩ :: ⟨.SEMI, _⟩ :: r => some (.refreshAtLeast s, r)
  | ⟨.REFRESH_BEFORE_EXPIRY, _⟩ :: ⟨.EQ, _⟩ :: ⟨.TIME, s⟩ :: ⟨.SEMI, _⟩ :: r => some (.refreshBeforeExpiry s, r)
  | ⟨.REFRESH_RETRY, _⟩ :: ⟨.EQ, _⟩ :: ⟨.TIME, s⟩ :: ⟨.SEMI, _⟩ :: r => some (.refreshRetry s, r)
  | ⟨.TOKEN_EVENT_CMD, _⟩ :: ⟨.EQ, _⟩ :: ⟨.STRING, s⟩ :: ⟨.SEMI, _⟩ :: r => some (.tokenEventCmd s, r)
  | _ => none

/-- `TopLevels`, src/config.y:8-11, up to the end of the file (`none`: syntax error). -/
def parseTopLevels : Nat → List Tok → Option (List TopLevel)
  | _, [] => some []
  | 0, _ :: _ => none
  | fuel + 1, t :: ts =>
    match parseTopLevel (t :: ts) with
    | none => none
    | some (x, r) => (parseTopLevels fuel r).map (x :: ·)

/-- The syntax tree of a file, src/config.rs:59-68 (`none`: syntax error). -/
def parseConfigText (s : String) : Option (List TopLevel) := parseTopLevels (lex s).length (lex s)

/-- `Config::from_str`, src/config.rs:58-240. -/
def Config.fromStr (E : Env) (s : String) : Except ConfErr Config :=
  match parseConfigText s with
  | none => .error .syntaxErr
  | some opts => Config.fromAst E opts

end Pizauth

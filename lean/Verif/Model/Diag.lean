import Verif.Model.Syntax
import Verif.Model.Http

/-!
# Messages about configuration files (src/config.rs)

`Verif.Model.Config` says which files are rejected; here are the texts of the messages, with the positions in the file.
A syntax tree with spans is represented by the syntax tree and, for each option and field, the position at which its
span begins (no more of the span is used for messages).

Simplification: positions are counted in characters rather than bytes (the code turns the ones into the others).
The text of an error of the URL parser and the messages of the parser generator are parameters.
-/

namespace Pizauth

/-- A token and the position at which it begins, src/config.rs:60. -/
structure PTok where
  tok : Tok
  pos : Nat
deriving DecidableEq, Repr

/-- `lexLoop` with positions; `off` characters have been read, src/config.l:1-36. -/
def plexLoop : Nat → Nat → List Char → List PTok
  | 0, _, _ => []
  | fuel + 1, off, i =>
    match longest i lexRules none with
    | none => []
    | some (k, n) =>
      if k = .skip then plexLoop fuel (off + n) (i.drop n)
      else ⟨⟨k, String.ofList (i.take n)⟩, off⟩ :: plexLoop fuel (off + n) (i.drop n)

/-- The tokens of a file, with their positions, src/config.l:1-36. -/
def plex (s : String) : List PTok := plexLoop s.toList.length 0 s.toList

/-- The position of the `k`-th token of a list (from 0), src/config.rs:655. -/
def posAt (ts : List PTok) (k : Nat) : Nat := ((ts[k]?).map PTok.pos).getD 0

/-- The span in an `AccountField`: that of `$1` for lists, of `$3` otherwise, src/config.y:36-46. -/
def fieldPos (f : AccountField) (ts : List PTok) : Nat :=
  match f with
  | .authUriFields _ => posAt ts 0
  | .scopes _ => posAt ts 0
  | _ => posAt ts 2

/-- `AccountField`, src/config.y:35-47. -/
def parsePField (ts : List PTok) : Option ((AccountField × Nat) × List PTok) :=
  match parseField (ts.map PTok.tok) with
  | none => none
  | some (f, r) => some ((f, fieldPos f ts), ts.drop (ts.length - r.length))

/-- `AccountFields`, src/config.y:30-33. -/
def parsePFields : Nat → List PTok → List (AccountField × Nat)
  | 0, _ => []
  | fuel + 1, ts =>
    match parsePField ts with
    | none => []
    | some (f, r) => f :: parsePFields fuel r

/-- A `TopLevel`, the position of its span, and those of the fields of an account, src/config_ast.rs:3-18. -/
structure PTop where
  top : TopLevel
  pos : Nat
  fields : List (AccountField × Nat)
deriving DecidableEq, Repr

/-- The span in a `TopLevel`: `$span` for accounts and `auth_error_cmd`, that of `$3` otherwise, src/config.y:14-27. -/
def topPos (x : TopLevel) (ts : List PTok) : Nat :=
  match x with
  | .account _ _ => posAt ts 0
  | .authErrorCmd => posAt ts 0
  | _ => posAt ts 2

/-- `TopLevel`, src/config.y:13-28. -/
def parsePTop (ts : List PTok) : Option (PTop × List PTok) :=
  match parseTopLevel (ts.map PTok.tok) with
  | none => none
  | some (x, r) => some (⟨x, topPos x ts, parsePFields (ts.drop 3).length (ts.drop 3)⟩, ts.drop (ts.length - r.length))

/-- `TopLevels`, src/config.y:8-11. -/
def parsePTops : Nat → List PTok → Option (List PTop)
  | _, [] => some []
  | 0, _ :: _ => none
  | fuel + 1, t :: ts =>
    match parsePTop (t :: ts) with
    | none => none
    | some (x, r) => (parsePTops fuel r).map (x :: ·)

/-! ## Positions -/

/-- The characters after the last line feed, src/config.rs:655. -/
def lastLine (l : List Char) : List Char := (l.reverse.takeWhile (· != '\n')).reverse

/-- `str::trim`, on characters, src/config.rs:657-661. -/
def trim (l : List Char) : List Char := trimEnd (l.dropWhile isRustWs)

/-- `error_at_span`, src/config.rs:649-667. -/
def errorAtSpan (src : List Char) (pos : Nat) (msg : String) : String :=
  let line := (src.take pos).count '\n' + 1
  let col := (lastLine (src.take pos)).length + 1
  let code := trim (lastLine (src.take pos) ++ (src.drop pos).takeWhile (· != '\n'))
  "Line " ++ toString line ++ ", column " ++ toString col ++ ":\n  " ++ String.ofList (trim code) ++ "\n" ++ msg

/-! ## Messages -/

/-- ErrTexts of messages which are made elsewhere: errors of the URL parser for a string, syntax errors of a file,
src/config.rs:62-67,291-317. -/
structure ErrTexts where
  url : String → String
  syn : String → String

/-- `check_not_assigned*`, src/config.rs:253, 269, 285, 313; also src/config.rs:388, 456. -/
def dupMsg (name : String) : String := "Mustn't specify '" ++ name ++ "' more than once"

/-- `time_str_to_duration`, src/config.rs:607-617, for a literal which it rejects. -/
def timeMsg (t : String) : String :=
  match parseU64 (t.toList.take (t.toList.filter Char.isDigit).length) with
  | none => "Invalid time: number too large to fit in target type"
  | some _ => "Invalid time: Number too big"

/-- The literal in a field or option, src/config_ast.rs:20-32. -/
def AccountField.lit : AccountField → String
  | .authUri s | .clientId s | .clientSecret s | .loginHint s | .redirectUri s | .refreshAtLeast s
  | .refreshBeforeExpiry s | .refreshRetry s | .tokenUri s => s
  | .authUriFields _ | .scopes _ => ""

/-- The literal in an option, src/config_ast.rs:3-18. -/
def TopLevel.lit : TopLevel → String
  | .account n _ => n
  | .authErrorCmd | .httpListenNone | .httpsListenNone => ""
  | .authNotifyCmd s | .authNotifyInterval s | .errorNotifyCmd s | .httpListen s | .httpsListen s
  | .transientErrorIfCmd s | .refreshAtLeast s | .refreshBeforeExpiry s | .refreshRetry s | .tokenEventCmd s => s

/-- The message for an error about a literal at a position (`none`: panic), src/config.rs:243-317. -/
def litMsg (T : ErrTexts) (src : List Char) (lit : String) (pos : Nat) : ConfErr → Option String
  | .dup n => some (errorAtSpan src pos (dupMsg n))
  | .badUri => some (errorAtSpan src pos ("Invalid URI: " ++ T.url (unescapeStr lit)))
  | .notHttp => some (errorAtSpan src pos "not a valid HTTP or HTTPS URI")
  | .badTime => some (timeMsg lit)
  | .renamed => some (errorAtSpan src pos "'auth_error_cmd' has been renamed to 'error_notify_cmd'")
  | .missing n => some (errorAtSpan src pos (n ++ " not specified"))
  | _ => none

/-- Body of the `for f in fields` loop of `Account::from_fields`, src/config.rs:378-471. -/
def fieldStepM (T : ErrTexts) (E : Env) (src : List Char) (s : FieldAcc) (p : AccountField × Nat) :
    Except (Option String) FieldAcc :=
  (fieldStep E s p.1).mapError (litMsg T src p.1.lit p.2)

/-- `Account::from_fields`, src/config.rs:360-498. -/
def Account.fromFieldsM (T : ErrTexts) (E : Env) (src : List Char) (name : String) (pos : Nat)
    (fields : List (AccountField × Nat)) : Except (Option String) Account := do
  let s ← fields.foldlM (fieldStepM T E src) {}
  let authUri ← (checkAssigned "auth_uri" s.authUri).mapError (litMsg T src "" pos)
  let clientId ← (checkAssigned "client_id" s.clientId).mapError (litMsg T src "" pos)
  let tokenUri ← (checkAssigned "token_uri" s.tokenUri).mapError (litMsg T src "" pos)
  if s.loginHint.isSome ∧ ((s.authUriFields.getD []).any fun (k, _) => k == "login_hint") then
    throw (some (errorAtSpan src pos ("Both the 'login_hint' attribute and a 'auth_uri_fields' field with the name " ++
      "'login_hint' are specified. The 'login_hint' attribute is deprecated so remove it.")))
  return { name := name
           authUri := authUri
           authUriFields := s.authUriFields.getD []
           clientId := clientId
           clientSecret := s.clientSecret
           redirectUri := s.redirectUri.getD "http://localhost/"
           refreshAtLeast := s.refreshAtLeast
           refreshBeforeExpiry := s.refreshBeforeExpiry
           refreshRetry := s.refreshRetry
           scopes := s.scopes.getD []
           tokenUri := tokenUri }

/-- Body of the `for opt in opts` loop of `Config::from_str`, src/config.rs:83-195. -/
def topStepM (T : ErrTexts) (E : Env) (src : List Char) (s : ConfAcc) (p : PTop) : Except (Option String) ConfAcc :=
  match p.top with
  | .account name _ => do
    let actName := unescapeStr name
    let a ← Account.fromFieldsM T E src actName p.pos p.fields
    return { s with accounts := insertAcct s.accounts actName a }
  | t => (topStep E s t).mapError (litMsg T src t.lit p.pos)

/-- The messages at src/config.rs:213, 220. -/
def listenMsg : ConfErr → Option String
  | .httpsOff n => some ("Account " ++ n ++ " has an 'https' redirect but the HTTPS server is set to 'none'")
  | .httpOff n => some ("Account " ++ n ++ " has an 'http' redirect but the HTTP server is set to 'none'")
  | _ => none

/-- `Config::from_str` from the syntax tree on, src/config.rs:70-240. -/
def Config.fromAstM (T : ErrTexts) (E : Env) (src : List Char) (opts : List PTop) : Except (Option String) Config := do
  let s ← opts.foldlM (topStepM T E src) {}
  if s.httpListen = some none ∧ s.httpsListen = some none then
    throw (some "Cannot set both http_listen and https_listen to 'none'")
  if s.accounts.isEmpty then throw (some "Must specify at least one account")
  s.accounts.forM fun p => (checkListen s.httpListen s.httpsListen p).mapError listenMsg
  return { accounts := s.accounts
           authNotifyCmd := s.authNotifyCmd
           authNotifyInterval := s.authNotifyInterval.getD authNotifyIntervalDefault
           errorNotifyCmd := s.errorNotifyCmd
           httpListen := s.httpListen.getD (some listenDefault)
           httpsListen := s.httpsListen.getD (some listenDefault)
           transientErrorIfCmd := s.transientErrorIfCmd
           refreshAtLeast := s.refreshAtLeast
           refreshBeforeExpiry := s.refreshBeforeExpiry
           refreshRetry := s.refreshRetry
           tokenEventCmd := s.tokenEventCmd }

/-- `Config::from_str`, src/config.rs:58-240, with the message if the file is rejected (`none`: panic). -/
def Config.fromStrM (T : ErrTexts) (E : Env) (s : String) : Except (Option String) Config :=
  match parsePTops (plex s).length (plex s) with
  | none => .error (some (T.syn s))
  | some opts => Config.fromAstM T E s.toList opts

end Pizauth

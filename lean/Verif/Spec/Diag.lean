import Verif.Spec.Grammar
import Verif.Spec.Options
import Verif.Model.Http

/-!
# Specification: what is wrong with a configuration file, and where

Stated with the grammar of `Spec/Grammar.lean` and the validity of `Spec/Options.lean`, without reference to the code
which makes messages. "Where" is the number of a token (from 0); `TokenAt` and `Located` turn it into line and column.
-/

namespace Pizauth

/-- The `k`-th token of the file begins after `off` characters: from there on the file has just the tokens from the
`k`-th one on, and it begins with the text of that token. -/
def TokenAt (file : String) (k off : Nat) : Prop :=
  ∃ t, (lex file)[k]? = some t ∧ lex (String.ofList (file.toList.drop off)) = (lex file).drop k ∧
    t.text.toList <+: file.toList.drop off

/-- After `off` characters one is in column `col` of line `line` of the file (both from 1), and that line is `code`, up
to blanks at its beginning and end. -/
def Located (file : String) (off line col : Nat) (code : String) : Prop :=
  ∃ before text after l r, file.toList = before ++ text ++ after ∧
    (before = [] ∨ before.getLast? = some '\n') ∧ '\n' ∉ text ∧ (after = [] ∨ after.head? = some '\n') ∧
    line = before.count '\n' + 1 ∧ off + 1 = before.length + col ∧ 1 ≤ col ∧ col ≤ text.length + 1 ∧
    text = l ++ code.toList ++ r ∧ (∀ c ∈ l, IsBlankChar c) ∧ (∀ c ∈ r, IsBlankChar c) ∧
    (∀ c, code.toList.head? = some c → ¬ IsBlankChar c) ∧ ∀ c, code.toList.getLast? = some c → ¬ IsBlankChar c

/-- Nothing is wrong with these options. -/
structure Clean (E : Env) (l : List TopLevel) : Prop where
  once : (optKeys l).Nodup
  values : ∀ t ∈ l, t.ValueOk
  blocks : ∀ b ∈ acctBlocks l, FieldsValid E b.2

/-- Nothing is wrong with these fields. -/
structure CleanFields (E : Env) (fs : List AccountField) : Prop where
  once : (fs.map AccountField.key).Nodup
  values : ∀ f ∈ fs, f.ValueOk E

/-- A field which is a URI. -/
def UriField (f : AccountField) (lit : String) : Prop := f = .authUri lit ∨ f = .redirectUri lit ∨ f = .tokenUri lit

/-- What is wrong with the field `f`, which comes after the fields `fs` and has the tokens `ts`: the number of the token
which is to blame, and the message. `urlErr` has the texts of errors of the URL parser. -/
inductive FieldFault (E : Env) (urlErr : String → String) (fs : List AccountField) :
    List Tok → AccountField → Nat → String → Prop where
  /-- It is there already: the message is about its value. -/
  | twice {k kw t f} : f.key ∈ fs.map AccountField.key → (∀ x, f ≠ .authUriFields x) → (∀ x, f ≠ .scopes x) →
      FieldFault E urlErr fs (⟨k, kw⟩ :: t) f 2 ("Mustn't specify '" ++ kw ++ "' more than once")
  /-- The same for lists: the message is about the keyword. -/
  | listTwice {k kw t f} : f.key ∈ fs.map AccountField.key → ((∃ x, f = .authUriFields x) ∨ ∃ x, f = .scopes x) →
      FieldFault E urlErr fs (⟨k, kw⟩ :: t) f 0 ("Mustn't specify '" ++ kw ++ "' more than once")
  /-- Its value is not a URL. -/
  | notUrl {t f lit} : f.key ∉ fs.map AccountField.key → UriField f lit → E.parseUrl (unescapeStr lit) = none →
      FieldFault E urlErr fs t f 2 ("Invalid URI: " ++ urlErr (unescapeStr lit))
  /-- Its value is a URL with the wrong scheme. -/
  | notHttp {t f lit u} : f.key ∉ fs.map AccountField.key → UriField f lit → E.parseUrl (unescapeStr lit) = some u →
      u.scheme ≠ "http" → u.scheme ≠ "https" → FieldFault E urlErr fs t f 2 "not a valid HTTP or HTTPS URI"

/-- What is wrong with the file: the number of the token which is to blame, and the message. -/
inductive Fault (E : Env) (urlErr : String → String) (file : String) : Nat → String → Prop where
  /-- An option with an old name. -/
  | renamed {ts l t r} : lex file = ts ++ t ++ r → GTopLevels ts l → Clean E l → GTopLevel t .authErrorCmd →
      Fault E urlErr file ts.length "'auth_error_cmd' has been renamed to 'error_notify_cmd'"
  /-- An option which is there already: the message is about its value. -/
  | twice {ts l k kw t x r} : lex file = ts ++ ⟨k, kw⟩ :: t ++ r → GTopLevels ts l → Clean E l →
      GTopLevel (⟨k, kw⟩ :: t) x → x.key ≠ .ACCOUNT → x.key ∈ l.map TopLevel.key →
      Fault E urlErr file (ts.length + 2) ("Mustn't specify '" ++ kw ++ "' more than once")
  /-- A field of an account. -/
  | field {ts l a n b fts fs t f r k msg} :
      lex file = ts ++ ([⟨.ACCOUNT, a⟩, ⟨.STRING, n⟩, ⟨.LBRACE, b⟩] ++ fts ++ t) ++ r → GTopLevels ts l → Clean E l →
      GAccountFields fts fs → CleanFields E fs → GAccountField t f → FieldFault E urlErr fs t f k msg →
      Fault E urlErr file (ts.length + 3 + fts.length + k) msg
  /-- An account without a mandatory field: the message is about the beginning of the account. -/
  | missing {ts l t n fs r k name} : lex file = ts ++ t ++ r → GTopLevels ts l → Clean E l →
      GTopLevel t (.account n fs) → CleanFields E fs → k ∉ fs.map AccountField.key →
      ((k, name) = (.AUTH_URI, "auth_uri") ∨
        (k, name) = (.CLIENT_ID, "client_id") ∧ .AUTH_URI ∈ fs.map AccountField.key ∨
        (k, name) = (.TOKEN_URI, "token_uri") ∧ .AUTH_URI ∈ fs.map AccountField.key ∧
          .CLIENT_ID ∈ fs.map AccountField.key) →
      Fault E urlErr file ts.length (name ++ " not specified")
  /-- An account with a login hint in both ways: the message is about the beginning of the account. -/
  | hint {ts l t n fs r h kvs v} : lex file = ts ++ t ++ r → GTopLevels ts l → Clean E l →
      GTopLevel t (.account n fs) → CleanFields E fs → .AUTH_URI ∈ fs.map AccountField.key →
      .CLIENT_ID ∈ fs.map AccountField.key → .TOKEN_URI ∈ fs.map AccountField.key → .loginHint h ∈ fs →
      .authUriFields kvs ∈ fs → v ∈ kvs → unescapeStr v.1 = "login_hint" →
      Fault E urlErr file ts.length ("Both the 'login_hint' attribute and a 'auth_uri_fields' field with the name " ++
        "'login_hint' are specified. The 'login_hint' attribute is deprecated so remove it.")

/-- A time which is too large. -/
def TimeFault (file : String) (msg : String) : Prop :=
  ∃ ds u k, ⟨.TIME, String.ofList (ds ++ [u])⟩ ∈ lex file ∧ unitSecs u = some k ∧ (∀ c ∈ ds, '0' ≤ c ∧ c ≤ '9') ∧
    ((2 ^ 64 ≤ numberOf ds ∧ msg = "Invalid time: number too large to fit in target type") ∨
      (numberOf ds < 2 ^ 64 ∧ 2 ^ 64 ≤ numberOf ds * k ∧ msg = "Invalid time: Number too big"))

/-- The message says what is wrong with the file, and where. -/
def Reported (E : Env) (urlErr : String → String) (file m : String) : Prop :=
  ∃ k msg off line col code, Fault E urlErr file k msg ∧ TokenAt file k off ∧ Located file off line col code ∧
    m = "Line " ++ toString line ++ ", column " ++ toString col ++ ":\n  " ++ code ++ "\n" ++ msg

/-- What is wrong with a file in which nothing is wrong with the options one by one. -/
inductive WholeFault (E : Env) (l : List TopLevel) : String → Prop where
  | bothNone : Clean E l → .httpListenNone ∈ l → .httpsListenNone ∈ l →
      WholeFault E l "Cannot set both http_listen and https_listen to 'none'"
  | noAccounts : Clean E l → acctBlocks l = [] → WholeFault E l "Must specify at least one account"
  | https {n fs r} : Clean E l → lastBlock l n = some fs → RedirectIs fs r → BeginsWith r "https" →
      .httpsListenNone ∈ l →
      WholeFault E l ("Account " ++ n ++ " has an 'https' redirect but the HTTPS server is set to 'none'")
  | http {n fs r} : Clean E l → lastBlock l n = some fs → RedirectIs fs r → ¬ BeginsWith r "https" →
      BeginsWith r "http" → .httpListenNone ∈ l →
      WholeFault E l ("Account " ++ n ++ " has an 'http' redirect but the HTTP server is set to 'none'")

/-- The message is about an option or a field with something wrong. -/
def Explained (E : Env) (urlErr : String → String) (file m : String) : Prop :=
  Reported E urlErr file m ∨ TimeFault file m

end Pizauth

import Verif.Proof.Texts
import Verif.Props.Grammar
import Verif.Props.Literals
import Verif.Props.UrlStd
import Verif.Spec.Examples

/-!
# C110: the configurations shown in the documentation
-/

namespace Pizauth

/-- A part of a file. -/
inductive Frag where
  /-- A word and a blank. -/
  | word (k : Kind)
  /-- One of the signs `= , { } [ ] ; :`. -/
  | sign (k : Kind)
  | blanks (s : String)
  | comment (l : String)
  | str (s : String)

/-- The signs. -/
def isSign (k : Kind) : Bool := [.EQ, .COMMA, .LBRACE, .RBRACE, .LBRACKET, .RBRACKET, .SEMI, .COLON].contains k

def Frag.text : Frag → List Char
  | .word k => ((fixedText k).getD "").toList ++ [' ']
  | .sign k => ((fixedText k).getD "").toList
  | .blanks s => s.toList
  | .comment l => '/' :: '/' :: (l.toList ++ ['\n'])
  | .str s => quoteChars s.toList

def Frag.ok : Frag → Bool
  | .word k => (fixedText k).isSome
  | .sign k => isSign k
  | .blanks s => s.toList.all isBlankChar
  | .comment l => !l.toList.contains '\n'
  | .str _ => true

def Frag.toks : Frag → List Tok
  | .word k | .sign k => [⟨k, (fixedText k).getD ""⟩]
  | .blanks _ | .comment _ => []
  | .str s => [⟨.STRING, quoteStr s⟩]

theorem lexC_sign {k : Kind} (h : isSign k = true) (r : List Char) :
    lexC (((fixedText k).getD "").toList ++ r) = ⟨k, (fixedText k).getD ""⟩ :: lexC r := by
  have hl : longest (((fixedText k).getD "").toList ++ r) lexRules none =
      some (k, ((fixedText k).getD "").toList.length) := by
    cases k <;> first | (cases h; done) | rfl
  have hk : k ≠ .skip := by rintro rfl; cases h
  rw [lexC_step hl, if_neg hk]
  simp

theorem lexC_frag {f : Frag} (h : f.ok = true) (r : List Char) : lexC (f.text ++ r) = f.toks ++ lexC r := by
  cases f with
  | word k =>
    simp only [Frag.ok, Option.isSome_iff_exists] at h
    obtain ⟨t, ht⟩ := h
    simp only [Frag.text, Frag.toks, ht, Option.getD_some, List.append_assoc, List.singleton_append]
    rw [lexC_fixed ht, lexC_blank (by decide)]
  | sign k => exact lexC_sign h r
  | blanks s =>
    simp only [Frag.text, Frag.toks, Frag.ok, List.nil_append] at h ⊢
    generalize s.toList = l at h
    induction l with
    | nil => rfl
    | cons c l ih =>
      simp only [List.all_cons, Bool.and_eq_true] at h
      rw [List.cons_append, lexC_blank h.1, ih h.2]
  | comment l =>
    simp only [Frag.text, List.cons_append, List.append_assoc, List.nil_append]
    exact lexC_comment _ _ (by simpa [Frag.ok] using h)
  | str s => exact lexC_quote _ _

theorem lex_frags {p : String} (fs : List Frag) (h1 : fs.all Frag.ok = true) (h2 : p = String.ofList (fs.flatMap
  Frag.text)) (r : String) :
    lex (p ++ r) = fs.flatMap Frag.toks ++ lex r := by
  rw [lex_eq, String.toList_append, h2, String.toList_ofList, lex_eq]
  clear h2
  induction fs with
  | nil => rfl
  | cons f fs ih =>
    simp only [List.all_cons, Bool.and_eq_true] at h1
    simp only [List.flatMap_cons, List.append_assoc]
    rw [lexC_frag h1.1, ih h1.2]

theorem lex_nil : lex "" = [] := rfl

theorem uri_ok {E : Env} {u : String} (h : IsHttpUri E u) (name : String) :
    checkNotAssignedUri (T := String) E name (quoteStr u) none = .ok u := by
  obtain ⟨x, h1, h2⟩ := h
  simp only [checkNotAssignedUri, unescapeStr_quote, h1, if_pos h2]

theorem str_ok {T : Type} (name s : String) : checkNotAssignedStr (T := T) name (quoteStr s) none = .ok s := by
  simp only [checkNotAssignedStr, unescapeStr_quote]

theorem except_bind {ε α β : Type} (a : α) (f : α → Except ε β) : ((Except.ok a : Except ε α) >>= f) = f a := rfl

theorem except_pure {ε α : Type} (a : α) : (pure a : Except ε α) = .ok a := rfl

theorem unescape_map (ss : List String) : (ss.map quoteStr).map unescapeStr = ss := by
  induction ss with
  | nil => rfl
  | cons s ss ih => simp [unescapeStr_quote, ih]

theorem localhost_listen {a : Account} (h : a.redirectUri = "http://localhost/") (n : String) (x : Option String)
    (y : Option (Option String)) :
    checkListen (x.map some) y (n, a) = .ok () := by
  have h1 : startsWith "http://localhost/" "https" = false := by decide +kernel
  unfold checkListen
  rw [h, h1, if_neg Bool.false_ne_true]
  split
  · rw [if_neg (by cases x <;> simp)]
  · rfl

/-- An account whose fields are given in this order. -/
theorem office_fields {E : Env} {a t : String} (ha : IsHttpUri E a) (ht : IsHttpUri E t) (n i k h e : String)
    (ss : List String) :
    Account.fromFields E n [.authUri (quoteStr a), .tokenUri (quoteStr t), .clientId (quoteStr i),
      .clientSecret (quoteStr k), .scopes (ss.map quoteStr), .authUriFields [(quoteStr h, quoteStr e)]] =
      .ok { name := n, authUri := a, authUriFields := [(h, e)], clientId := i, clientSecret := some k,
            redirectUri := "http://localhost/", refreshAtLeast := none, refreshBeforeExpiry := none, refreshRetry := none,
            scopes := ss, tokenUri := t } := by
  simp only [List.foldlM_cons, List.foldlM_nil, Account.fromFields, fieldStep, uri_ok ha, uri_ok ht,
    str_ok, checkAssigned, except_bind, except_pure, Option.isSome_none, Bool.false_eq_true, if_false,
    List.map_cons, List.map_nil, unescapeStr_quote, unescape_map, false_and, Option.getD_none, Option.getD_some]

theorem microsoft_fields {E : Env} {a t : String} (ha : IsHttpUri E a) (ht : IsHttpUri E t) (n i k h e : String)
    (ss : List String) :
    Account.fromFields E n [.authUri (quoteStr a), .authUriFields [(quoteStr h, quoteStr e)], .tokenUri (quoteStr t),
      .clientId (quoteStr i), .clientSecret (quoteStr k), .scopes (ss.map quoteStr)] =
      .ok { name := n, authUri := a, authUriFields := [(h, e)], clientId := i, clientSecret := some k,
            redirectUri := "http://localhost/", refreshAtLeast := none, refreshBeforeExpiry := none, refreshRetry := none,
            scopes := ss, tokenUri := t } := by
  simp only [List.foldlM_cons, List.foldlM_nil, Account.fromFields, fieldStep, uri_ok ha, uri_ok ht,
    str_ok, checkAssigned, except_bind, except_pure, Option.isSome_none, Bool.false_eq_true, if_false,
    List.map_cons, List.map_nil, unescapeStr_quote, unescape_map, false_and, Option.getD_none, Option.getD_some]

theorem miele_fields {E : Env} {a t : String} (ha : IsHttpUri E a) (ht : IsHttpUri E t) (n i k : String) :
    Account.fromFields E n [.authUri (quoteStr a), .tokenUri (quoteStr t), .clientId (quoteStr i),
      .clientSecret (quoteStr k)] =
      .ok { name := n, authUri := a, authUriFields := [], clientId := i, clientSecret := some k,
            redirectUri := "http://localhost/", refreshAtLeast := none, refreshBeforeExpiry := none, refreshRetry := none,
            scopes := [], tokenUri := t } := by
  simp only [List.foldlM_cons, List.foldlM_nil, Account.fromFields, fieldStep, uri_ok ha, uri_ok ht,
    str_ok, checkAssigned, except_bind, except_pure, Option.isSome_none, Bool.false_eq_true, if_false,
     false_and, Option.getD_none]

/-- A file with one account. -/
theorem one_account {E : Env} {n : String} {fs : List AccountField} {x : Account}
    (h : Account.fromFields E n fs = .ok x) (hn : x.name = n) (hr : x.redirectUri = "http://localhost/") :
    Config.fromAst E [.account (quoteStr n) fs] = .ok (defaultsWith x) := by
  have hl := localhost_listen hr n none none
  simp only [Option.map_none] at hl
  simp only [Config.fromAst, List.foldlM_cons, List.foldlM_nil, topStep, unescapeStr_quote, h, except_bind, except_pure,
    insertAcct]
  simp [hl, except_bind, except_pure, defaultsWith, hn, authNotifyIntervalDefault, secs, nsPerSec, listenDefault]

theorem remote_account {E : Env} {n : String} {fs : List AccountField} {x : Account}
    (h : Account.fromFields E n fs = .ok x) (hn : x.name = n) (hr : x.redirectUri = "http://localhost/") (p : String) :
    Config.fromAst E [.httpListen (quoteStr p), .account (quoteStr n) fs] =
      .ok { defaultsWith x with httpListen := some p } := by
  have hl := localhost_listen hr n (some p) none
  simp only [Option.map_some] at hl
  simp only [Config.fromAst, List.foldlM_cons, List.foldlM_nil, topStep, unescapeStr_quote, str_ok, h, except_bind, except_pure,
    insertAcct]
  simp [hl, except_bind, except_pure, defaultsWith, hn, authNotifyIntervalDefault, secs, nsPerSec, listenDefault]

theorem notify_account {E : Env} {n : String} {fs : List AccountField} {x : Account}
    (h : Account.fromFields E n fs = .ok x) (hn : x.name = n) (hr : x.redirectUri = "http://localhost/") (p q : String) :
    Config.fromAst E [.authNotifyCmd (quoteStr p), .errorNotifyCmd (quoteStr q), .account (quoteStr n) fs] =
      .ok { defaultsWith x with authNotifyCmd := some p, errorNotifyCmd := some q } := by
  have hl := localhost_listen hr n none none
  simp only [Option.map_none] at hl
  simp only [Config.fromAst, List.foldlM_cons, List.foldlM_nil, topStep, unescapeStr_quote, str_ok, h, except_bind, except_pure,
    insertAcct]
  simp [hl, except_bind, except_pure, defaultsWith, hn, authNotifyIntervalDefault, secs, nsPerSec, listenDefault]

set_option maxRecDepth 20000 in
/-- **C110.** The example of the manual page gives an account of this name with this client id, client secret and
login hint; all else is as documented. -/
theorem C110_office {E : Env} (ha : IsHttpUri E "https://login.microsoftonline.com/common/oauth2/v2.0/authorize")
    (ht : IsHttpUri E "https://login.microsoftonline.com/common/oauth2/v2.0/token") (n i k e : String) :
    Config.fromStr E (officeFile n i k e) = .ok
      (defaultsWith
        { name := n
          authUri := "https://login.microsoftonline.com/common/oauth2/v2.0/authorize"
          authUriFields := [("login_hint", e)]
          clientId := i
          clientSecret := some k
          redirectUri := "http://localhost/"
          refreshAtLeast := none
          refreshBeforeExpiry := none
          refreshRetry := none
          scopes := ["https://outlook.office365.com/IMAP.AccessAsUser.All",
            "https://outlook.office365.com/SMTP.Send",
            "offline_access"]
          tokenUri := "https://login.microsoftonline.com/common/oauth2/v2.0/token" }) := by
  have hp : parseConfigText (officeFile n i k e) = some [.account (quoteStr n) [.authUri (quoteStr
    "https://login.microsoftonline.com/common/oauth2/v2.0/authorize"), .tokenUri (quoteStr
    "https://login.microsoftonline.com/common/oauth2/v2.0/token"), .clientId (quoteStr i), .clientSecret (quoteStr k),
    .scopes (["https://outlook.office365.com/IMAP.AccessAsUser.All", "https://outlook.office365.com/SMTP.Send",
    "offline_access"].map quoteStr), .authUriFields [((quoteStr "login_hint"), quoteStr e)]]] := by
    unfold parseConfigText officeFile
    rw [lex_frags [.word .ACCOUNT]]
    rw [C40_token]
    rw [lex_frags [.blanks " ", .sign .LBRACE, .blanks "\n    ", .word .AUTH_URI, .sign .EQ, .blanks " ", .str
      "https://login.microsoftonline.com/common/oauth2/v2.0/authorize", .sign .SEMI, .blanks "\n    ", .word .TOKEN_URI,
      .sign .EQ, .blanks " ", .str "https://login.microsoftonline.com/common/oauth2/v2.0/token", .sign .SEMI, .blanks
      "\n    ", .word .CLIENT_ID, .sign .EQ, .blanks " "]]
    rw [C40_token]
    rw [lex_frags [.sign .SEMI, .blanks " ", .comment " Fill in with your Client ID", .blanks "    ", .word
      .CLIENT_SECRET, .sign .EQ, .blanks " "]]
    rw [C40_token]
    rw [lex_frags [.sign .SEMI, .blanks " ", .comment " Fill in with your Client secret", .blanks "    ", .word .SCOPES,
      .sign .EQ, .blanks " ", .sign .LBRACKET, .blanks "\n      ", .str
      "https://outlook.office365.com/IMAP.AccessAsUser.All", .sign .COMMA, .blanks "\n      ", .str
      "https://outlook.office365.com/SMTP.Send", .sign .COMMA, .blanks "\n      ", .str "offline_access", .blanks
      "\n    ", .sign .RBRACKET, .sign .SEMI, .blanks "\n    ", .comment
      " You don't have to specify login_hint, but it does make", .blanks "    ", .comment
      " authentication a little easier.", .blanks "    ", .word .AUTH_URI_FIELDS, .sign .EQ, .blanks " ", .sign .LBRACE,
      .blanks " ", .str "login_hint", .sign .COLON, .blanks " "]]
    rw [C40_token]
    rw [← String.append_empty (s := r#" };
}
"#)]
    rw [lex_frags [.blanks " ", .sign .RBRACE, .sign .SEMI, .blanks "\n", .sign .RBRACE, .blanks "\n"]]
    · simp [Frag.toks, fixedText, parseTopLevels, parseTopLevel, parseFields, parseField, parseScopes,
        parseScopesRest, parsePairs, parsePairsRest, lex_nil]
    all_goals rfl
  simp only [Config.fromStr, hp]
  exact one_account (office_fields ha ht n i k "login_hint" e _) rfl rfl

set_option maxRecDepth 20000 in
/-- **C110.** The README's account for Microsoft. -/
theorem C110_microsoft {E : Env} (ha : IsHttpUri E "https://login.microsoftonline.com/common/oauth2/v2.0/authorize")
    (ht : IsHttpUri E "https://login.microsoftonline.com/common/oauth2/v2.0/token") (n e i k : String) :
    Config.fromStr E (microsoftFile n e i k) = .ok
      (defaultsWith
        { name := n
          authUri := "https://login.microsoftonline.com/common/oauth2/v2.0/authorize"
          authUriFields := [("login_hint", e)]
          clientId := i
          clientSecret := some k
          redirectUri := "http://localhost/"
          refreshAtLeast := none
          refreshBeforeExpiry := none
          refreshRetry := none
          scopes := ["https://outlook.office365.com/IMAP.AccessAsUser.All",
            "https://outlook.office365.com/POP.AccessAsUser.All",
            "https://outlook.office365.com/SMTP.Send",
            "offline_access"]
          tokenUri := "https://login.microsoftonline.com/common/oauth2/v2.0/token" }) := by
  have hp : parseConfigText (microsoftFile n e i k) = some [.account (quoteStr n) [.authUri (quoteStr
    "https://login.microsoftonline.com/common/oauth2/v2.0/authorize"), .authUriFields [((quoteStr "login_hint"),
    quoteStr e)], .tokenUri (quoteStr "https://login.microsoftonline.com/common/oauth2/v2.0/token"), .clientId (quoteStr
    i), .clientSecret (quoteStr k), .scopes (["https://outlook.office365.com/IMAP.AccessAsUser.All",
    "https://outlook.office365.com/POP.AccessAsUser.All", "https://outlook.office365.com/SMTP.Send",
    "offline_access"].map quoteStr)]] := by
    unfold parseConfigText microsoftFile
    rw [lex_frags [.word .ACCOUNT]]
    rw [C40_token]
    rw [lex_frags [.blanks " ", .sign .LBRACE, .blanks "\n    ", .word .AUTH_URI, .sign .EQ, .blanks " ", .str
      "https://login.microsoftonline.com/common/oauth2/v2.0/authorize", .sign .SEMI, .blanks "\n    ", .word
      .AUTH_URI_FIELDS, .sign .EQ, .blanks " ", .sign .LBRACE, .blanks " ", .str "login_hint", .sign .COLON, .blanks
      " "]]
    rw [C40_token]
    rw [lex_frags [.blanks " ", .sign .RBRACE, .sign .SEMI, .blanks "\n    ", .word .TOKEN_URI, .sign .EQ, .blanks " ",
      .str "https://login.microsoftonline.com/common/oauth2/v2.0/token", .sign .SEMI, .blanks "\n    ", .word
      .CLIENT_ID, .sign .EQ, .blanks " "]]
    rw [C40_token]
    rw [lex_frags [.sign .SEMI, .blanks "\n    ", .word .CLIENT_SECRET, .sign .EQ, .blanks " "]]
    rw [C40_token]
    rw [← String.append_empty (s := r#";
    scopes = [
      "https://outlook.office365.com/IMAP.AccessAsUser.All",
      "https://outlook.office365.com/POP.AccessAsUser.All",
      "https://outlook.office365.com/SMTP.Send",
      "offline_access"
    ];
}
"#)]
    rw [lex_frags [.sign .SEMI, .blanks "\n    ", .word .SCOPES, .sign .EQ, .blanks " ", .sign .LBRACKET, .blanks
      "\n      ", .str "https://outlook.office365.com/IMAP.AccessAsUser.All", .sign .COMMA, .blanks "\n      ", .str
      "https://outlook.office365.com/POP.AccessAsUser.All", .sign .COMMA, .blanks "\n      ", .str
      "https://outlook.office365.com/SMTP.Send", .sign .COMMA, .blanks "\n      ", .str "offline_access", .blanks
      "\n    ", .sign .RBRACKET, .sign .SEMI, .blanks "\n", .sign .RBRACE, .blanks "\n"]]
    · simp [Frag.toks, fixedText, parseTopLevels, parseTopLevel, parseFields, parseField, parseScopes,
        parseScopesRest, parsePairs, parsePairsRest, lex_nil]
    all_goals rfl
  simp only [Config.fromStr, hp]
  exact one_account (microsoft_fields ha ht n i k "login_hint" e _) rfl rfl

set_option maxRecDepth 20000 in
/-- **C110.** The README's account for Gmail. -/
theorem C110_gmail {E : Env} (ha : IsHttpUri E "https://accounts.google.com/o/oauth2/auth")
    (ht : IsHttpUri E "https://oauth2.googleapis.com/token") (n e i k : String) :
    Config.fromStr E (gmailFile n e i k) = .ok
      (defaultsWith
        { name := n
          authUri := "https://accounts.google.com/o/oauth2/auth"
          authUriFields := [("login_hint", e)]
          clientId := i
          clientSecret := some k
          redirectUri := "http://localhost/"
          refreshAtLeast := none
          refreshBeforeExpiry := none
          refreshRetry := none
          scopes := ["https://mail.google.com/"]
          tokenUri := "https://oauth2.googleapis.com/token" }) := by
  have hp : parseConfigText (gmailFile n e i k) = some [.account (quoteStr n) [.authUri (quoteStr
    "https://accounts.google.com/o/oauth2/auth"), .authUriFields [((quoteStr "login_hint"), quoteStr e)], .tokenUri
    (quoteStr "https://oauth2.googleapis.com/token"), .clientId (quoteStr i), .clientSecret (quoteStr k), .scopes
    (["https://mail.google.com/"].map quoteStr)]] := by
    unfold parseConfigText gmailFile
    rw [lex_frags [.word .ACCOUNT]]
    rw [C40_token]
    rw [lex_frags [.blanks " ", .sign .LBRACE, .blanks "\n    ", .word .AUTH_URI, .sign .EQ, .blanks " ", .str
      "https://accounts.google.com/o/oauth2/auth", .sign .SEMI, .blanks "\n    ", .word .AUTH_URI_FIELDS, .sign .EQ,
      .blanks " ", .sign .LBRACE, .str "login_hint", .sign .COLON, .blanks " "]]
    rw [C40_token]
    rw [lex_frags [.sign .RBRACE, .sign .SEMI, .blanks "\n    ", .word .TOKEN_URI, .sign .EQ, .blanks " ", .str
      "https://oauth2.googleapis.com/token", .sign .SEMI, .blanks "\n    ", .word .CLIENT_ID, .sign .EQ, .blanks " "]]
    rw [C40_token]
    rw [lex_frags [.sign .SEMI, .blanks "\n    ", .word .CLIENT_SECRET, .sign .EQ, .blanks " "]]
    rw [C40_token]
    rw [← String.append_empty (s := r#";
    scopes = ["https://mail.google.com/"];
}
"#)]
    rw [lex_frags [.sign .SEMI, .blanks "\n    ", .word .SCOPES, .sign .EQ, .blanks " ", .sign .LBRACKET, .str
      "https://mail.google.com/", .sign .RBRACKET, .sign .SEMI, .blanks "\n", .sign .RBRACE, .blanks "\n"]]
    · simp [Frag.toks, fixedText, parseTopLevels, parseTopLevel, parseFields, parseField, parseScopes,
        parseScopesRest, parsePairs, parsePairsRest, lex_nil]
    all_goals rfl
  simp only [Config.fromStr, hp]
  exact one_account (microsoft_fields ha ht n i k "login_hint" e _) rfl rfl

set_option maxRecDepth 20000 in
/-- **C110.** The README's account for Miele, without scopes. -/
theorem C110_miele {E : Env} (ha : IsHttpUri E "https://api.mcs3.miele.com/thirdparty/login/")
    (ht : IsHttpUri E "https://api.mcs3.miele.com/thirdparty/token/") (n i k : String) :
    Config.fromStr E (mieleFile n i k) = .ok
      (defaultsWith
        { name := n
          authUri := "https://api.mcs3.miele.com/thirdparty/login/"
          authUriFields := []
          clientId := i
          clientSecret := some k
          redirectUri := "http://localhost/"
          refreshAtLeast := none
          refreshBeforeExpiry := none
          refreshRetry := none
          scopes := []
          tokenUri := "https://api.mcs3.miele.com/thirdparty/token/" }) := by
  have hp : parseConfigText (mieleFile n i k) = some [.account (quoteStr n) [.authUri (quoteStr
    "https://api.mcs3.miele.com/thirdparty/login/"), .tokenUri (quoteStr
    "https://api.mcs3.miele.com/thirdparty/token/"), .clientId (quoteStr i), .clientSecret (quoteStr k)]] := by
    unfold parseConfigText mieleFile
    rw [lex_frags [.word .ACCOUNT]]
    rw [C40_token]
    rw [lex_frags [.blanks " ", .sign .LBRACE, .blanks "\n    ", .word .AUTH_URI, .sign .EQ, .blanks " ", .str
      "https://api.mcs3.miele.com/thirdparty/login/", .sign .SEMI, .blanks "\n    ", .word .TOKEN_URI, .sign .EQ,
      .blanks " ", .str "https://api.mcs3.miele.com/thirdparty/token/", .sign .SEMI, .blanks "\n    ", .word .CLIENT_ID,
      .sign .EQ, .blanks " "]]
    rw [C40_token]
    rw [lex_frags [.sign .SEMI, .blanks "\n    ", .word .CLIENT_SECRET, .sign .EQ, .blanks " "]]
    rw [C40_token]
    rw [← String.append_empty (s := r#";
}
"#)]
    rw [lex_frags [.sign .SEMI, .blanks "\n", .sign .RBRACE, .blanks "\n"]]
    · simp [Frag.toks, fixedText, parseTopLevels, parseTopLevel, parseFields, parseField, lex_nil]
    all_goals rfl
  simp only [Config.fromStr, hp]
  exact one_account (miele_fields ha ht n i k) rfl rfl

set_option maxRecDepth 20000 in
/-- **C110.** The README's setting for a remote machine. -/
theorem C110_remote {E : Env} (ha : IsHttpUri E "https://api.mcs3.miele.com/thirdparty/login/")
    (ht : IsHttpUri E "https://api.mcs3.miele.com/thirdparty/token/") (p n i k : String) :
    Config.fromStr E (remoteFile p n i k) = .ok
      { defaultsWith
        { name := n
          authUri := "https://api.mcs3.miele.com/thirdparty/login/"
          authUriFields := []
          clientId := i
          clientSecret := some k
          redirectUri := "http://localhost/"
          refreshAtLeast := none
          refreshBeforeExpiry := none
          refreshRetry := none
          scopes := []
          tokenUri := "https://api.mcs3.miele.com/thirdparty/token/" } with
        httpListen := some p } := by
  have hp : parseConfigText (remoteFile p n i k) = some [.httpListen (quoteStr p), .account (quoteStr n) [.authUri
    (quoteStr "https://api.mcs3.miele.com/thirdparty/login/"), .tokenUri (quoteStr
    "https://api.mcs3.miele.com/thirdparty/token/"), .clientId (quoteStr i), .clientSecret (quoteStr k)]] := by
    unfold parseConfigText remoteFile
    rw [lex_frags [.word .HTTP_LISTEN, .sign .EQ, .blanks " "]]
    rw [C40_token]
    rw [lex_frags [.sign .SEMI, .blanks "\n", .word .ACCOUNT]]
    rw [C40_token]
    rw [lex_frags [.blanks " ", .sign .LBRACE, .blanks "\n    ", .word .AUTH_URI, .sign .EQ, .blanks " ", .str
      "https://api.mcs3.miele.com/thirdparty/login/", .sign .SEMI, .blanks "\n    ", .word .TOKEN_URI, .sign .EQ,
      .blanks " ", .str "https://api.mcs3.miele.com/thirdparty/token/", .sign .SEMI, .blanks "\n    ", .word .CLIENT_ID,
      .sign .EQ, .blanks " "]]
    rw [C40_token]
    rw [lex_frags [.sign .SEMI, .blanks "\n    ", .word .CLIENT_SECRET, .sign .EQ, .blanks " "]]
    rw [C40_token]
    rw [← String.append_empty (s := r#";
}
"#)]
    rw [lex_frags [.sign .SEMI, .blanks "\n", .sign .RBRACE, .blanks "\n"]]
    · simp [Frag.toks, fixedText, parseTopLevels, parseTopLevel, parseFields, parseField, lex_nil]
    all_goals rfl
  simp only [Config.fromStr, hp]
  exact remote_account (miele_fields ha ht n i k) rfl rfl p

set_option maxRecDepth 20000 in
/-- **C110.** The README's commands for notifications. -/
theorem C110_notify {E : Env} (ha : IsHttpUri E "https://api.mcs3.miele.com/thirdparty/login/")
    (ht : IsHttpUri E "https://api.mcs3.miele.com/thirdparty/token/") (n i k : String) :
    Config.fromStr E (notifyFile n i k) = .ok
      { defaultsWith
        { name := n
          authUri := "https://api.mcs3.miele.com/thirdparty/login/"
          authUriFields := []
          clientId := i
          clientSecret := some k
          redirectUri := "http://localhost/"
          refreshAtLeast := none
          refreshBeforeExpiry := none
          refreshRetry := none
          scopes := []
          tokenUri := "https://api.mcs3.miele.com/thirdparty/token/" } with
        authNotifyCmd := some
          "if [[ \"$(notify-send -A \"Open $PIZAUTH_ACCOUNT\" \
            -t 30000 'pizauth authorisation')\" == \"0\" ]]; then open \"$PIZAUTH_URL\"; fi"
        errorNotifyCmd := some "notify-send -t 90000 \"pizauth error for $PIZAUTH_ACCOUNT\" \"$PIZAUTH_MSG\"" } := by
  have hp : parseConfigText (notifyFile n i k) = some [.authNotifyCmd (quoteStr
    "if [[ \"$(notify-send -A \"Open $PIZAUTH_ACCOUNT\" -t 30000 'pizauth authorisation')\" == \"0\" ]]; then open \"$PIZAUTH_URL\"; fi"),
    .errorNotifyCmd (quoteStr "notify-send -t 90000 \"pizauth error for $PIZAUTH_ACCOUNT\" \"$PIZAUTH_MSG\""), .account
    (quoteStr n) [.authUri (quoteStr "https://api.mcs3.miele.com/thirdparty/login/"), .tokenUri (quoteStr
    "https://api.mcs3.miele.com/thirdparty/token/"), .clientId (quoteStr i), .clientSecret (quoteStr k)]] := by
    unfold parseConfigText notifyFile
    rw [lex_frags [.word .AUTH_NOTIFY_CMD, .sign .EQ, .blanks " ", .str
      "if [[ \"$(notify-send -A \"Open $PIZAUTH_ACCOUNT\" -t 30000 'pizauth authorisation')\" == \"0\" ]]; then open \"$PIZAUTH_URL\"; fi",
      .sign .SEMI, .blanks "\n", .word .ERROR_NOTIFY_CMD, .sign .EQ, .blanks " ", .str
      "notify-send -t 90000 \"pizauth error for $PIZAUTH_ACCOUNT\" \"$PIZAUTH_MSG\"", .sign .SEMI, .blanks "\n", .word
      .ACCOUNT]]
    rw [C40_token]
    rw [lex_frags [.blanks " ", .sign .LBRACE, .blanks "\n    ", .word .AUTH_URI, .sign .EQ, .blanks " ", .str
      "https://api.mcs3.miele.com/thirdparty/login/", .sign .SEMI, .blanks "\n    ", .word .TOKEN_URI, .sign .EQ,
      .blanks " ", .str "https://api.mcs3.miele.com/thirdparty/token/", .sign .SEMI, .blanks "\n    ", .word .CLIENT_ID,
      .sign .EQ, .blanks " "]]
    rw [C40_token]
    rw [lex_frags [.sign .SEMI, .blanks "\n    ", .word .CLIENT_SECRET, .sign .EQ, .blanks " "]]
    rw [C40_token]
    rw [← String.append_empty (s := r#";
}
"#)]
    rw [lex_frags [.sign .SEMI, .blanks "\n", .sign .RBRACE, .blanks "\n"]]
    · simp [Frag.toks, fixedText, parseTopLevels, parseTopLevel, parseFields, parseField, lex_nil]
    all_goals rfl
  simp only [Config.fromStr, hp]
  exact notify_account (miele_fields ha ht n i k) rfl rfl _ _

/-- **C110.** The manual page's times. -/
theorem C110_times : timeStrToDuration "90s" = .ok 90000000000 ∧ timeStrToDuration "5m" = .ok 300000000000 := by
  decide +kernel

theorem off_tokens (rest : String) :
    (∃ ts, lex ("http_listen=off;" ++ rest) =
      ⟨.HTTP_LISTEN, "http_listen"⟩ :: ⟨.EQ, "="⟩ :: ⟨.UNMATCHED, "o"⟩ :: ts) ∧
    ∃ ts, lex ("https_listen=off;" ++ rest) =
      ⟨.HTTPS_LISTEN, "https_listen"⟩ :: ⟨.EQ, "="⟩ :: ⟨.UNMATCHED, "o"⟩ :: ts := by
  have ho (r : List Char) : lexC ("off;".toList ++ r) = ⟨.UNMATCHED, "o"⟩ :: lexC ("ff;".toList ++ r) := by
    rw [lexC_step (k := .UNMATCHED) (n := 1) rfl]
    rfl
  have h1 (r : List Char) : lexC ("http_listen=off;".toList ++ r) =
      ⟨.HTTP_LISTEN, "http_listen"⟩ :: lexC ("=off;".toList ++ r) := by
    rw [lexC_step (k := .HTTP_LISTEN) (n := 11) rfl]
    rfl
  have h2 (r : List Char) : lexC ("https_listen=off;".toList ++ r) =
      ⟨.HTTPS_LISTEN, "https_listen"⟩ :: lexC ("=off;".toList ++ r) := by
    rw [lexC_step (k := .HTTPS_LISTEN) (n := 12) rfl]
    rfl
  have h3 (r : List Char) : lexC ("=off;".toList ++ r) = ⟨.EQ, "="⟩ :: lexC ("off;".toList ++ r) :=
    lexC_sign (k := .EQ) rfl _
  constructor <;> refine ⟨lexC ("ff;".toList ++ rest.toList), ?_⟩
  · rw [lex_eq, String.toList_append, h1, h3, ho]
  · rw [lex_eq, String.toList_append, h2, h3, ho]

/-- **C110.** The change log speaks of `http_listen=off` and `https_listen=off`, but no file which begins so
is accepted. -/
theorem C110_off (E : Env) (rest : String) : Config.fromStr E ("http_listen=off;" ++ rest) = .error .syntaxErr ∧
    Config.fromStr E ("https_listen=off;" ++ rest) = .error .syntaxErr := by
  obtain ⟨⟨ts, h1⟩, ts', h2⟩ := off_tokens rest
  constructor
  · simp [Config.fromStr, parseConfigText, h1, parseTopLevels, parseTopLevel]
  · simp [Config.fromStr, parseConfigText, h2, parseTopLevels, parseTopLevel]

/-! The URLs are URLs by the URL standard. -/

example : ∀ u ∈ ["https://login.microsoftonline.com/common/oauth2/v2.0/authorize",
    "https://login.microsoftonline.com/common/oauth2/v2.0/token", "https://accounts.google.com/o/oauth2/auth",
    "https://oauth2.googleapis.com/token", "https://api.mcs3.miele.com/thirdparty/login/",
    "https://api.mcs3.miele.com/thirdparty/token/"], (Demo.envUrl.parseUrl u).map (·.scheme) = some "https" := by
  decide +kernel

end Pizauth

import Verif.Model.Config
import Verif.Spec.Literals

/-!
# Specification: the configurations shown in the documentation

The text which users have to fill in is a string literal (`quoteStr`).
-/

namespace Pizauth

/-- pizauth.conf.5:202-215 and examples/pizauth.conf (README.md:46-59 only breaks the comment elsewhere). -/
def officeFile (n i k e : String) : String :=
  r#"account "# ++ (quoteStr n ++ (r#" {
    auth_uri = "https://login.microsoftonline.com/common/oauth2/v2.0/authorize";
    token_uri = "https://login.microsoftonline.com/common/oauth2/v2.0/token";
    client_id = "# ++ (quoteStr i ++ (r#"; // Fill in with your Client ID
    client_secret = "# ++ (quoteStr k ++ (r#"; // Fill in with your Client secret
    scopes = [
      "https://outlook.office365.com/IMAP.AccessAsUser.All",
      "https://outlook.office365.com/SMTP.Send",
      "offline_access"
    ];
    // You don't have to specify login_hint, but it does make
    // authentication a little easier.
    auth_uri_fields = { "login_hint": "# ++ (quoteStr e ++ (r#" };
}
"#))))))))

/-- README.md:214-226. -/
def microsoftFile (n e i k : String) : String :=
  r#"account "# ++ (quoteStr n ++ (r#" {
    auth_uri = "https://login.microsoftonline.com/common/oauth2/v2.0/authorize";
    auth_uri_fields = { "login_hint": "# ++ (quoteStr e ++ (r#" };
    token_uri = "https://login.microsoftonline.com/common/oauth2/v2.0/token";
    client_id = "# ++ (quoteStr i ++ (r#";
    client_secret = "# ++ (quoteStr k ++ (r#";
    scopes = [
      "https://outlook.office365.com/IMAP.AccessAsUser.All",
      "https://outlook.office365.com/POP.AccessAsUser.All",
      "https://outlook.office365.com/SMTP.Send",
      "offline_access"
    ];
}
"#))))))))

/-- README.md:236-243. -/
def gmailFile (n e i k : String) : String :=
  r#"account "# ++ (quoteStr n ++ (r#" {
    auth_uri = "https://accounts.google.com/o/oauth2/auth";
    auth_uri_fields = {"login_hint": "# ++ (quoteStr e ++ (r#"};
    token_uri = "https://oauth2.googleapis.com/token";
    client_id = "# ++ (quoteStr i ++ (r#";
    client_secret = "# ++ (quoteStr k ++ (r#";
    scopes = ["https://mail.google.com/"];
}
"#))))))))

/-- README.md:255-260. -/
def mieleFile (n i k : String) : String :=
  r#"account "# ++ (quoteStr n ++ (r#" {
    auth_uri = "https://api.mcs3.miele.com/thirdparty/login/";
    token_uri = "https://api.mcs3.miele.com/thirdparty/token/";
    client_id = "# ++ (quoteStr i ++ (r#";
    client_secret = "# ++ (quoteStr k ++ (r#";
}
"#))))))

/-- README.md:273 (with the account of README.md:255-260). -/
def remoteFile (p n i k : String) : String :=
  r#"http_listen = "# ++ (quoteStr p ++ (r#";
account "# ++ (quoteStr n ++ (r#" {
    auth_uri = "https://api.mcs3.miele.com/thirdparty/login/";
    token_uri = "https://api.mcs3.miele.com/thirdparty/token/";
    client_id = "# ++ (quoteStr i ++ (r#";
    client_secret = "# ++ (quoteStr k ++ (r#";
}
"#))))))))

/-- README.md:82-83 (with the account of README.md:255-260). -/
def notifyFile (n i k : String) : String :=
  r#"auth_notify_cmd = "if [[ \"$(notify-send -A \"Open $PIZAUTH_ACCOUNT\" -t 30000 'pizauth authorisation')\" == \"0\" ]]; then open \"$PIZAUTH_URL\"; fi";
error_notify_cmd = "notify-send -t 90000 \"pizauth error for $PIZAUTH_ACCOUNT\" \"$PIZAUTH_MSG\"";
account "# ++ (quoteStr n ++ (r#" {
    auth_uri = "https://api.mcs3.miele.com/thirdparty/login/";
    token_uri = "https://api.mcs3.miele.com/thirdparty/token/";
    client_id = "# ++ (quoteStr i ++ (r#";
    client_secret = "# ++ (quoteStr k ++ (r#";
}
"#))))))

/-- A configuration with this account and nothing else: "Defaults to 15 minutes", "Defaults to 127.0.0.1:0",
pizauth.conf.5:24-115. -/
def defaultsWith (a : Account) : Config :=
  { accounts := [(a.name, a)]
    authNotifyCmd := none
    authNotifyInterval := 15 * 60 * 1000000000
    errorNotifyCmd := none
    httpListen := some "127.0.0.1:0"
    httpsListen := some "127.0.0.1:0"
    transientErrorIfCmd := none
    refreshAtLeast := none
    refreshBeforeExpiry := none
    refreshRetry := none
    tokenEventCmd := none }

end Pizauth

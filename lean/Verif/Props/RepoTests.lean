import Verif.Props.Config

/-!
# The repository's tests of src/server/state.rs, and `valid_https_config` of src/config.rs

The other tests of src/config.rs are in `Props/Config.lean` and `Props/Literals.lean`.
-/

namespace Pizauth
namespace RepoTests

/-- The URLs in these tests. -/
def urlsR : List (String × Url) :=
  [("http://a.com", ⟨"http", some "a.com", none, "/", []⟩), ("http://f.com", ⟨"http", some "f.com", none, "/", []⟩),
   ("http://g.com", ⟨"http", some "g.com", none, "/", []⟩), ("http://h.com", ⟨"http", some "h.com", none, "/", []⟩),
   ("https://e.com", ⟨"https", some "e.com", none, "/", []⟩)]

def envR : Env := { Demo.env with parseUrl := fun s => urlsR.lookup s }

def acct (n auth : String) : Account :=
  { name := n, authUri := auth, authUriFields := [], clientId := "b", clientSecret := some "c", redirectUri := "http://f.com",
    refreshAtLeast := none, refreshBeforeExpiry := none, refreshRetry := none, scopes := ["d", "e"], tokenUri := "http://g.com" }

def conf (l : List Account) : Config :=
  { accounts := l.map fun a => (a.name, a), authNotifyCmd := none, authNotifyInterval := 900000000000, errorNotifyCmd := none,
    httpListen := some "127.0.0.1:0", httpsListen := some "127.0.0.1:0", transientErrorIfCmd := none, refreshAtLeast := none,
    refreshBeforeExpiry := none, refreshRetry := none, tokenEventCmd := none }

def conf1 : Config := conf [acct "x" "http://a.com"]
def conf2 : Config := conf [acct "x" "http://h.com"]
def conf3 : Config := conf [acct "x" "http://a.com", acct "y" "http://a.com"]

set_option maxRecDepth 20000 in
example : Config.fromStr envR "
            account \"x\" {
                auth_uri = \"http://a.com\";
                client_id = \"b\";
                client_secret = \"c\";
                scopes = [\"d\", \"e\"];
                redirect_uri = \"http://f.com\";
                token_uri = \"http://g.com\";
            }
            " = .ok conf1 := (Demo.fromStr_chars _ _).trans (by decide +kernel)

set_option maxRecDepth 20000 in
example : Config.fromStr envR "
            account \"x\" {
                auth_uri = \"http://h.com\";
                client_id = \"b\";
                client_secret = \"c\";
                scopes = [\"d\", \"e\"];
                redirect_uri = \"http://f.com\";
                token_uri = \"http://g.com\";
            }
            " = .ok conf2 := (Demo.fromStr_chars _ _).trans (by decide +kernel)

set_option maxRecDepth 20000 in
example : Config.fromStr envR "
            account \"x\" {
                auth_uri = \"http://a.com\";
                client_id = \"b\";
                client_secret = \"c\";
                scopes = [\"d\", \"e\"];
                redirect_uri = \"http://f.com\";
                token_uri = \"http://g.com\";
            }
            
            account \"y\" {
                auth_uri = \"http://a.com\";
                client_id = \"b\";
                client_secret = \"c\";
                scopes = [\"d\", \"e\"];
                redirect_uri = \"http://f.com\";
                token_uri = \"http://g.com\";
            }
            " = .ok conf3 := (Demo.fromStr_chars _ _).trans (by decide +kernel)

/-- The id of an account and its token state. -/
def look (ls : LockedState) (n : String) : Option (Nat × TokenState) :=
  match ls.validateActName n with
  | none => none
  | some id => (ls.tokenstate id).map fun ts => (id, ts)

def pending : TokenState := .pending ⟨"abc", none, "xyz", ⟨"http", some "a.com", none, "\n/\n\n", []⟩⟩

/-- `test_act_validation`, src/server/state.rs:553-704 -/
def actValidation : Option Bool := do
  let s0 := LockedState.new conf1
  let (x0, t0) ← look s0 "x"
  let s1 ← s0.updateConf conf2
  let (x1, t1) ← look s1 "x"
  let s2 ← s1.updateConf conf2
  let (x2, t2) ← look s2 "x"
  let s3 ← s2.updateConf conf3
  let (x3, t3) ← look s3 "x"
  let (y3, u3) ← look s3 "y"
  let s4 ← s3.updateConf conf2
  let (x4, t4) ← look s4 "x"
  let (x5, s5) ← s4.tokenstateReplace x4 pending
  let t5 ← s5.tokenstate x5
  let s6 ← s5.updateConf conf2
  let (x6, t6) ← look s6 "x"
  let s7 ← s6.updateConf conf1
  let (x7, t7) ← look s7 "x"
  some (x0 == 0 && t0 == .empty && x1 != x0 && t1 == .empty && x2 == x1 && t2 == .empty && x3 != x2 && t3 == .empty &&
    u3 == .empty && x4 != x3 && t4 == .empty && (s4.validateActName "y").isNone && !s4.isActIdValid y3 &&
    x5 != x4 && t5 == pending && x6 == x5 && t6 == pending && x7 != x6 && t7 == .empty)

example : actValidation = some true := by decide +kernel

/-- `AuthenticatorState::dump` at the time `now`; the wall clock runs with it. -/
def dump (ls : LockedState) (now : Nat) : Option Bytes :=
  match authDump envR ls now (now + secs 1700000000) (Vector.replicate 12 7)
    ((ls.dumpLoop now (now + secs 1700000000) ls.details).getD []) with
  | .ok b => some b
  | _ => none

/-- `AuthenticatorState::restore` -/
def restore (ls : LockedState) (now : Nat) (b : Bytes) : Option LockedState := do
  let plain ← envR.decrypt (b.take 12) (b.drop 12)
  let d ← decDump plain
  let l ← ls.restoreCollect now (now + secs 1700000000) d ls.details
  match ls.restore now (now + secs 1700000000) plain l with
  | .ok ls' => some ls'
  | _ => none

/-- A token which was obtained at the time `now`, for a minute. -/
def active (now : Nat) : TokenState := .active ⟨"abc", now, now + secs 60, none, false, 0, none⟩

/-- `dump_restore`, src/server/state.rs:707-840 -/
def dumpRestore : Option Bool := do
  let s0 := LockedState.new conf3
  let (x0, t0) ← look s0 "x"
  let d0 ← dump s0 (secs 10)
  let s1 ← restore s0 (secs 11) d0
  let (x1, t1) ← look s1 "x"
  let (_, s2) ← s1.tokenstateReplace x1 pending
  let s3 ← restore s2 (secs 12) d0
  let (x3, t3) ← look s3 "x"
  let (_, s4) ← s3.tokenstateReplace x3 (active (secs 13))
  let d4 ← dump s4 (secs 14)
  let s5 ← restore s4 (secs 15) d4
  let (x5, t5) ← look s5 "x"
  -- another server
  let r0 := LockedState.new conf3
  let (z0, v0) ← look r0 "x"
  let r1 ← restore r0 (secs 20) d4
  let (z1, v1) ← look r1 "x"
  some (t0 == .empty && x1 == x0 && t1 == .empty && x3 != x0 && t3 == pending && x5 != x0 && t5 == active (secs 13) &&
    v0 == .empty && z1 != z0 && v1 == active (secs 13))

example : dumpRestore = some true := by decide +kernel

def acctHttps : Account :=
  { name := "x", authUri := "http://a.com", authUriFields := [("l", "m"), ("n", "o"), ("l", "p")], clientId := "b",
    clientSecret := none, redirectUri := "https://e.com", refreshAtLeast := none, refreshBeforeExpiry := none,
    refreshRetry := none, scopes := ["c", "d"], tokenUri := "http://f.com" }

def confHttps : Config := { conf [acctHttps] with httpsListen := some "127.0.0.1:56789" }

set_option maxRecDepth 20000 in
example : Config.fromStr envR "
            https_listen = \"127.0.0.1:56789\";
            account \"x\" {
                // Mandatory fields
                auth_uri = \"http://a.com\";
                auth_uri_fields = {\"l\": \"m\", \"n\": \"o\", \"l\": \"p\"};
                client_id = \"b\";
                scopes = [\"c\", \"d\"];
                token_uri = \"http://f.com\";
                // Optional fields
                redirect_uri = \"https://e.com\";
            }
        " = .ok confHttps := (Demo.fromStr_chars _ _).trans (by decide +kernel)

/-- `valid_https_config`, src/config.rs:971-995 -/
def validHttps : Option Bool := do
  let a ← confHttps.get? "x"
  match a.redirectUrl envR (some 0) (some 56789) with
  | .ok u => some (a.redirectUri == "https://e.com" && u.scheme == "https" && u.port == some 56789 && u.host == some "e.com")
  | _ => none

example : validHttps = some true := by decide +kernel

end RepoTests
end Pizauth

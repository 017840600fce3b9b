import Verif.Model.World

/-!
# Specification: where an access token comes from

A log is a list of timed observations, newest first.
-/

namespace Pizauth

/-- A log: what was observed when, newest first. -/
abbrev Log := List (Instant × Obs)

/-- The client asks for the account named `n` (`pizauth show` or `pizauth refresh`), which may start an
authorisation. -/
def AsksFor (buf : Bytes) (n : String) : Prop :=
  ∃ u, parseReq buf = .showtoken u n ∨ parseReq buf = .refresh u n

/-- The token server's answer grants the access token `tok` for `x` seconds. -/
structure Issued (b : Body) (tok : String) (x : Nat) : Prop where
  noError : ∀ m, b.get "error" ≠ some (.str m)
  bearer : b.get "token_type" = some (.str "Bearer")
  token : b.get "access_token" = some (.str tok)
  expires : b.get "expires_in" = some (.u64 x)

/-- The client credentials of an account, as sent to a token server. -/
def secretParam (a : Account) : List (String × String) :=
  match a.clientSecret with
  | some s => [("client_secret", s)]
  | none => []

/-- What is POSTed to exchange a code for a token (RFC 6749, 4.1.3; RFC 7636, 4.5). -/
def exchangePost (a : Account) (code verifier redirect : String) : List (String × String) :=
  [("code", code), ("client_id", a.clientId), ("code_verifier", verifier), ("redirect_uri", redirect),
   ("grant_type", "authorization_code")] ++ secretParam a

/-- What is POSTed to refresh a token (RFC 6749, 6). -/
def refreshPost (a : Account) (refreshToken : String) : List (String × String) :=
  [("client_id", a.clientId), ("refresh_token", refreshToken), ("grant_type", "refresh_token")] ++ secretParam a

/-- The refresh token after an answer to a refresh with `old`. -/
def newRefreshToken (b : Body) (old : String) : Option String :=
  match b.get "refresh_token" with
  | none => some old
  | some (.str s) => some s
  | some _ => none

/-- `expiry` is `s` seconds after `obtained`, if the clock can represent that. -/
def ExpiresAfter (obtained : Instant) (s : Nat) (expiry : Instant) : Prop :=
  (obtained + s * 1000000000 ≤ timeMax ∧ expiry = obtained + s * 1000000000) ∨
  (timeMax < obtained + s * 1000000000 ∧ ∃ d : Nat, expiry = obtained + d)

/-- What the daemon knows about a token. -/
structure TokInfo where
  tok : String
  rt : Option String
  obtained : Instant
  expiry : Instant

def ActiveTok.info (t : ActiveTok) : TokInfo := ⟨t.accessToken, t.refreshToken, t.obtained, t.expiry⟩

/-- The log `L` shows that the token was obtained for the account `n` configured as `a` (up to refresh timing):
everything it is based on is in `L`. -/
inductive Lineage (E : Env) (S : Static) (n : String) (a : Account) : Log → TokInfo → Prop where
  /-- A client asked for the account, then a code was sent to the account's token server, which answered with the
  token. -/
  | code {L : Log} {buf : Bytes} {tid : Nat} {code verifier : String} {redirect : Url} {b : Body} {tok : String}
      {x : Nat} {t1 t2 t3 obtained expiry : Instant} :
      AsksFor buf n →
      a.redirectUrl E S.httpPort S.httpsPort = .ok redirect →
      [(t3, .resp tid a.tokenUri (exchangePost a code verifier (E.renderUrl redirect)) (.body b)),
       (t2, .post tid a.tokenUri (exchangePost a code verifier (E.renderUrl redirect))),
       (t1, .request buf)].Sublist L →
      Issued b tok x → t3 ≤ obtained → ExpiresAfter obtained x expiry →
      Lineage E S n a L ⟨tok, b.str "refresh_token", obtained, expiry⟩
  /-- The refresh token of such a token was sent to the account's token server, which answered with the token. -/
  | refresh {L L' : Log} {i : TokInfo} {tid : Nat} {r : String} {b : Body} {tok : String} {x : Nat}
      {t1 t2 obtained expiry : Instant} :
      Lineage E S n a L i → i.rt = some r →
      [(t2, .resp tid a.tokenUri (refreshPost a r) (.body b)),
       (t1, .post tid a.tokenUri (refreshPost a r))].Sublist L' →
      Issued b tok x → t2 ≤ obtained → ExpiresAfter obtained x expiry →
      Lineage E S n a (L' ++ L) ⟨tok, newRefreshToken b r, obtained, expiry⟩
  /-- A dump was restored which recorded the token for this account and this very configuration. -/
  | restored {L : Log} {t : Instant} {plain : Bytes} {d : Dump} {tok : String} {o x : SysTime} {rt : Option String}
      {obtained expiry : Instant} :
      (t, .restored plain) ∈ L → decDump plain = some d →
      (n, (a.dump, .active tok o x rt)) ∈ d.accounts →
      Lineage E S n a L ⟨tok, rt, obtained, expiry⟩
  /-- Evidence is not lost. -/
  | later {L : Log} {o : Instant × Obs} {i : TokInfo} : Lineage E S n a L i → Lineage E S n a (o :: L) i

/-- `w` is reached from `w0` by any number of steps. -/
inductive Steps (E : Env) (w0 : World) : World → Prop where
  | refl : Steps E w0 w0
  | step {w w' : World} (a : Action) : Steps E w0 w → w.step E a = some w' → Steps E w0 w'

end Pizauth

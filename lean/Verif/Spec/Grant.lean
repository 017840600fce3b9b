import Verif.Spec.Lineage

/-!
# Specification: a token was granted during some part of an execution
-/

namespace Pizauth

/-- The log `L` shows the very answer in which the token server of the account (or the client, by restoring a dump)
gave the daemon the access token `tok` with the refresh token `rt`. -/
inductive GrantedIn (E : Env) (S : Static) (n : String) (a : Account) (L : Log) (tok : String) (rt : Option String) : Prop where
  | code {t : Instant} {tid : Nat} {code verifier : String} {redirect : Url} {b : Body} {x : Nat} :
      a.redirectUrl E S.httpPort S.httpsPort = .ok redirect →
      (t, .resp tid a.tokenUri (exchangePost a code verifier (E.renderUrl redirect)) (.body b)) ∈ L →
      Issued b tok x → rt = b.str "refresh_token" → GrantedIn E S n a L tok rt
  | refresh {t : Instant} {tid : Nat} {r : String} {b : Body} {x : Nat} :
      (t, .resp tid a.tokenUri (refreshPost a r) (.body b)) ∈ L →
      Issued b tok x → rt = newRefreshToken b r → GrantedIn E S n a L tok rt
  | restored {t : Instant} {plain : Bytes} {d : Dump} {o x : SysTime} :
      (t, .restored plain) ∈ L → decDump plain = some d → (n, (a.dump, .active tok o x rt)) ∈ d.accounts →
      GrantedIn E S n a L tok rt

end Pizauth

import Verif.Spec.Callback
import Verif.Spec.Dump
import Verif.Spec.Expiry
import Verif.Spec.Reload
import Verif.Spec.Trace

/-!
# Specification: the life of an account

Everything which can happen to the token state of an account, in one step, and why.
-/

namespace Pizauth

/-- The main thread carries out the request `buf`. -/
def Carries (w : World) (act : Action) (buf : Bytes) : Prop :=
  w.threads 0 = [.unix buf, .close] ∧ ∃ inp, act = .run 0 inp

/-- Thread `i` has a code for the authorisation `p` of account `n`: it came with a callback which named `p`, and came to
the redirect URI of `n`. -/
def HasCode (E : Env) (w : World) (i : Nat) (n : String) (p : PendingTok) (code : String) : Prop :=
  ∃ buf sec uri, DidStep E i w (fun w1 _ => Handling w1 i buf sec ∧ Names E w1.ls buf sec n p uri ∧
    AtRedirect E w1.st w1.ls n uri) ∧ uri.param "error" = none ∧ uri.param "code" = some code

/-- Thread `i` has sent the refresh token `r` to a token server, and got the answer `net`; since then it has done `l`. -/
def Refreshed (w : World) (i : Nat) (r : String) (net : Net) (l : List Obs) : Prop :=
  ∃ (u : String) (a : Account),
    threadLog i w.log = l ++ [.resp i u (refreshPost a r) net, .post i u (refreshPost a r)]

/-- Why the token state of account `n` may be changed by the action `act`, in the situation `w`. -/
inductive Change (E : Env) (w : World) : Action → String → TokenState → TokenState → Prop where
  /-- The user asks for a token which the daemon does not have. -/
  | asked {act : Action} {n : String} {buf : Bytes} {u : Bool} {p : PendingTok} : Carries w act buf →
      (parseReq buf = .showtoken u n ∨ parseReq buf = .refresh u n) → p.lastNotification = none →
      Change E w act n .empty (.pending p)
  /-- The user asks for another authorisation. -/
  | again {act : Action} {n : String} {buf : Bytes} {u : Bool} {p p' : PendingTok} : Carries w act buf →
      parseReq buf = .refresh u n → p'.lastNotification = none → Change E w act n (.pending p) (.pending p')
  /-- The user is reminded of an authorisation, which remains the same. -/
  | reminded {n : String} {p : PendingTok} :
      Change E w .notifier n (.pending p) (.pending { p with lastNotification := some w.now })
  /-- The user revokes the token. -/
  | revoked {act : Action} {n : String} {buf : Bytes} {s : TokenState} : Carries w act buf → parseReq buf = .revoke n →
      Change E w act n s .empty
  /-- The user restores a dump which has a token for the account; and the account has none. -/
  | restored {act : Action} {n : String} {buf d plain : Bytes} {dmp : Dump} {s : TokenState} {t : ActiveTok}
      {o x : SysTime} : Carries w act buf → parseReq buf = .restore d →
      E.decrypt (d.take 12) (d.drop 12) = some plain → decDump plain = some dmp → dmp.version = 1 →
      dmp.Offers w.ls n t.accessToken o x t.refreshToken → (∀ t, s ≠ .active t) → t.ongoing = false → t.fails = 0 →
      t.lastAttempt = none → Change E w act n s (.active t)
  /-- The user changes the security-relevant settings of the account. -/
  | reloaded {inp : Input} {n : String} {c : Config} {rest : List Op} {s : TokenState} {a a' : Account} :
      w.threads 0 = .install c :: rest → w.ls.config.get? n = some a → c.get? n = some a' → ¬ SameSec a a' →
      Change E w (.run 0 inp) n s .empty
  /-- The authorisation server reports an error. -/
  | denied {i : Nat} {inp : Input} {n m : String} {buf : Bytes} {sec : Bool} {uri : Url} {p : PendingTok} :
      Handling w i buf sec → Names E w.ls buf sec n p uri → AtRedirect E w.st w.ls n uri →
      uri.param "error" = some m → Change E w (.run i inp) n (.pending p) .empty
  /-- The token server does not give a token for a code, or there is no answer. -/
  | failed {i : Nat} {inp : Input} {n code u : String} {p : PendingTok} {f : List (String × String)} {net : Net}
      {l : List Obs} : HasCode E w i n p code → threadLog i w.log = .resp i u f net :: l →
      ¬ Granted (threadLog i w.log) → Change E w (.run i inp) n (.pending p) .empty
  /-- The token server gives a token for a code. -/
  | granted {i : Nat} {inp : Input} {n code u tok : String} {p : PendingTok} {f : List (String × String)} {b : Body}
      {x : Nat} {x' : Instant} {l : List Obs} {a : Account} : HasCode E w i n p code →
      threadLog i w.log = .resp i u f (.body b) :: l → Issued b tok x →
      w.ls.config.get? n = some a → ExpiryRule w.ls.config a w.now x x' →
      Change E w (.run i inp) n (.pending p) (.active
        { accessToken := tok, obtained := w.now, expiry := x', refreshToken := firstRefreshToken b, ongoing := false,
          fails := 0, lastAttempt := none })
  /-- A refresh begins. -/
  | begun {i : Nat} {inp : Input} {n : String} {t : ActiveTok} : i ≠ 0 → threadLog i w.log = [] → t.ongoing = false →
      t.refreshToken.isSome →
      Change E w (.run i inp) n (.active t) (.active { t with ongoing := true, lastAttempt := some w.now })
  /-- A refresh is due, but there is no refresh token. -/
  | unrefreshable {i : Nat} {inp : Input} {n : String} {t : ActiveTok} : i ≠ 0 → threadLog i w.log = [] →
      t.ongoing = false → t.refreshToken = none → Change E w (.run i inp) n (.active t) .empty
  /-- A refresh succeeds. -/
  | refreshed {i : Nat} {inp : Input} {n r tok : String} {t : ActiveTok} {b : Body} {x : Nat} {t0 x' : Instant}
      {a : Account} :
      Refreshed w i r (.body b) [] → t.ongoing = true → t.refreshToken = some r → Issued b tok x → t0 ≤ w.now →
      w.ls.config.get? n = some a → ExpiryRule w.ls.config a t0 x x' →
      Change E w (.run i inp) n (.active t) (.active
        { accessToken := tok, obtained := t0, expiry := x', refreshToken := newRefreshToken b r, ongoing := false,
          fails := 0, lastAttempt := none })
  /-- The token server refuses a refresh, or its answer makes no sense. -/
  | refused {i : Nat} {inp : Input} {n r : String} {t : ActiveTok} {net : Net} : Refreshed w i r net [] →
      t.ongoing = true → t.refreshToken = some r → net.IsPermanent → Change E w (.run i inp) n (.active t) .empty
  /-- The clock cannot represent the time until which the new token is valid. -/
  | endless {i : Nat} {inp : Input} {n r tok : String} {t : ActiveTok} {b : Body} {x : Nat} :
      Refreshed w i r (.body b) [] → t.ongoing = true → t.refreshToken = some r → Issued b tok x →
      timeMax < w.now + x * 1000000000 → Change E w (.run i inp) n (.active t) .empty
  /-- A refresh fails, but may succeed later. -/
  | postponed {i : Nat} {inp : Input} {n r : String} {t : ActiveTok} {net : Net} {ongoing : Bool} :
      Refreshed w i r net [] → t.ongoing = true → t.refreshToken = some r → net.IsTransient →
      (ongoing = true ↔ 6 ∣ t.fails + 1 ∧ w.ls.config.transientErrorIfCmd.isSome) →
      Change E w (.run i inp) n (.active t)
        (.active { t with ongoing := ongoing, lastAttempt := some w.now, fails := t.fails + 1 })
  /-- The user's command says that the failure does not matter. -/
  | forgiven {i : Nat} {inp : Input} {n r cmd : String} {t : ActiveTok} {net : Net} :
      Refreshed w i r net [.transientCmdEnd i true, .transientCmd i cmd n] → t.ongoing = true →
      net.IsTransient → Change E w (.run i inp) n (.active t) (.active { t with ongoing := false })
  /-- The user's command says that the failure matters. -/
  | givenUp {i : Nat} {inp : Input} {n r cmd : String} {t : ActiveTok} {net : Net} :
      Refreshed w i r net [.transientCmdEnd i false, .transientCmd i cmd n] → t.ongoing = true →
      net.IsTransient → Change E w (.run i inp) n (.active t) .empty

end Pizauth

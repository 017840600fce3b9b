import Verif.Model.Messages
import Verif.Spec.Trace

/-!
# Specification: what log messages say
-/

namespace Pizauth

/-- An answer of a token server (or the lack of one) for which a refresh of account `n` fails for good, and the reason
given for it. -/
inductive PermReason (n : String) : Net → String → Prop where
  | error {b : Body} {e : String} : b.get "error" = some (.str e) → PermReason n (.body b) ("Refreshing " ++ n ++ " failed: " ++ e)
  | format {b : Body} : (∀ e, b.get "error" ≠ some (.str e)) → (¬ ∃ tok x, Issued b tok x) →
      PermReason n (.body b) "Received JSON in unexpected format"
  | json {e : String} : PermReason n (.badJson e) ("Refreshing " ++ n ++ " failed: " ++ e)
  | status {code : Nat} : PermReason n (.status code none) (toString code)
  | statusBody {code : Nat} {r : String} : PermReason n (.status code (some r)) (toString code ++ ": " ++ r)
  /-- the words are the HTTP library's -/
  | other {r : String} : PermReason n (.transport .other) r

/-- An answer for which a refresh will be tried again, and the reason given. -/
inductive TransReason : Net → String → Prop where
  | read {e : String} : TransReason (.readErr e) e
  /-- the words are the HTTP library's -/
  | failed {k : TransportKind} {r : String} : k ≠ .other → TransReason (.transport k) r

/-- Thread `tid` has got an answer `net`. -/
def Got (w : World) (tid : Nat) (net : Net) : Prop := ∃ t u f, (t, Obs.resp tid u f net) ∈ w.log

/-- The message `s` at level `info` is about a refresh of account `n`, and is true. -/
inductive InfoOk (w : World) (tid : Nat) (n : String) : String → Prop where
  | permanent {net : Net} {r : String} : Got w tid net → PermReason n net r →
      InfoOk w tid n ("Permanent refresh error for " ++ n ++ ": " ++ r)
  /-- a token is granted for longer than the clock can represent -/
  | endless {b : Body} {tok : String} {x : Nat} : Got w tid (.body b) → Issued b tok x →
      timeMax < w.now + x * 1000000000 →
      InfoOk w tid n ("Permanent refresh error for " ++ n ++ ": Can't represent expiry")
  | transitory {net : Net} {r : String} : Got w tid net → TransReason net r →
      InfoOk w tid n ("Transitory refresh error for " ++ n ++ " : " ++ r)
  /-- `transient_error_if_cmd` says that the error is not a transient one; the words are the operating system's -/
  | command {t : Instant} {r cmd : String} : (t, Obs.transientCmdEnd tid false) ∈ w.log →
      (∃ t, (t, Obs.transientCmd tid cmd n) ∈ w.log) →
      InfoOk w tid n ("Permanent refresh error for " ++ n ++ " : " ++ r)

/-- A message which tells that account `n` has lost its token. -/
def IsPermanentError (n s : String) : Prop :=
  ∃ r, s = "Permanent refresh error for " ++ n ++ ": " ++ r ∨ s = "Permanent refresh error for " ++ n ++ " : " ++ r

/-- The message `s` at level `warn` is about a request that failed. -/
inductive WarnOk (w : World) (tid : Nat) (s : String) : Prop where
  /-- from a client -/
  | request {t : Instant} {buf : Bytes} : tid = 0 → (t, Obs.request buf) ∈ w.log →
      (colon ∉ buf → s = "Syntactically invalid request '" ++ (fromUtf8 buf).getD "<can't represent as UTF-8" ++ "'") →
      WarnOk w tid s
  /-- from a browser -/
  | callback {t : Instant} {buf : Bytes} {isHttps : Bool} : (t, Obs.httpReq tid buf isHttps) ∈ w.log → WarnOk w tid s

/-- Errors which are logged because there is no `error_notify_cmd`. -/
def errorMessage : Instant × Obs → Option (Nat × Msg)
  | (_, .errorLog tid n m) => some (tid, ⟨.error, n ++ ": " ++ m⟩)
  | _ => none

end Pizauth

import Verif.Spec.Callback

/-!
# Specification: what does not disturb a login

While a code is exchanged, other things go on. These are the ones which have nothing to do with the authorisation `p` for
which account `n` waits.
-/

namespace Pizauth

/-- The handle (an account id) with which a thread works for an account. -/
def Op.handle : Op → Option Nat
  | .exSend c _ | .exAwait c _ | .exSleep c _ _ | .exDone c _ => some c.id
  | .fail id _ => some id
  | .rfStart id => some id
  | .rfSend c | .rfAwait c | .rfPerm c | .rfNow c _ _ _ | .rfStore c _ _ _ _ | .rfTransient c => some c.id
  | .rfCmd id _ _ | .rfCmdWait id _ | .rfCmdErr id _ | .rfCmdOk id => some id
  | _ => none

/-- A client's request other than `reload`, `restore`, and `revoke` and `refresh` of account `n`. -/
def QuietReq (n : String) (buf : Bytes) : Prop :=
  parseReq buf ≠ .reload ∧ (∀ d, parseReq buf ≠ .restore d) ∧ parseReq buf ≠ .revoke n ∧ ∀ u, parseReq buf ≠ .refresh u n

/-- An HTTP request which does not name the authorisation `p`. -/
def QuietGet (E : Env) (p : PendingTok) (buf : Bytes) (sec : Bool) : Prop :=
  ∀ uri, parseGet E buf sec = some uri → uri.param "state" ≠ some p.state

/-- Only such requests come in. -/
def Quiet (E : Env) (n : String) (p : PendingTok) : Action → Prop
  | .connect buf => QuietReq n buf
  | .http buf sec => QuietGet E p buf sec
  | _ => True

/-- What is left to do for a thread has nothing to do with the authorisation `p` of account `n`. -/
def Apart (E : Env) (ls : LockedState) (n : String) (p : PendingTok) (o : Op) : Prop :=
  (∀ buf, o = .unix buf → QuietReq n buf) ∧ (∀ buf sec, o = .http buf sec → QuietGet E p buf sec) ∧
  (∀ c, o ≠ .install c) ∧ ∀ h, o.handle = some h → ∀ e ∈ ls.details, e.id = h → e.name ≠ n

end Pizauth

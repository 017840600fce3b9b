import Verif.Spec.Lineage

/-!
# Specification: refreshes in flight

A thread which refreshes a token has a handle (an account id) on the account. The handle is valid as long as the
account's token state is not changed by anyone else.
-/

namespace Pizauth

/-- The handle of a thread which has begun to refresh a token, from the moment the token is marked until it is done. -/
def Op.refreshHandle : Op → Option Nat
  | .rfSend c | .rfAwait c | .rfPerm c | .rfNow c _ _ _ | .rfStore c _ _ _ _ | .rfTransient c => some c.id
  | .rfCmd id _ _ | .rfCmdWait id _ | .rfCmdErr id _ | .rfCmdOk id => some id
  | _ => none

/-- Thread `i` is refreshing a token, with the handle `h`. -/
def Refreshing (w : World) (i h : Nat) : Prop := ∃ o ∈ w.threads i, o.refreshHandle = some h

/-- Thread `i` is refreshing the token of account `n`, and its handle is still valid. -/
def RefreshingAccount (w : World) (i : Nat) (n : String) : Prop :=
  ∃ e ∈ w.ls.details, e.name = n ∧ Refreshing w i e.id

/-- Thread `i` is refreshing, but its handle is no longer valid: the account was changed by someone else. -/
def HandleLost (w : World) (i : Nat) : Prop := (∃ h, Refreshing w i h) ∧ ∀ n, ¬ RefreshingAccount w i n

/-- The account is marked as being refreshed. -/
def Marked (ls : LockedState) (n : String) : Prop :=
  ∃ e ∈ ls.details, ∃ t, e.name = n ∧ e.ts = .active t ∧ t.ongoing = true

/-- An execution in which thread `i` makes `k` steps. -/
inductive StepsOf (E : Env) (i : Nat) (w0 : World) : Nat → World → Prop where
  | refl : StepsOf E i w0 0 w0
  | other {k : Nat} {w w' : World} (a : Action) : StepsOf E i w0 k w → w.step E a = some w' →
      (∀ inp, a ≠ .run i inp) → StepsOf E i w0 k w'
  | own {k : Nat} {w w' : World} (inp : Input) : StepsOf E i w0 k w → w.step E (.run i inp) = some w' →
      StepsOf E i w0 (k + 1) w'

end Pizauth

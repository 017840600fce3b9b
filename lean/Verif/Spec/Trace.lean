import Verif.Spec.Lineage

/-!
# Specification: what a single thread did
-/

namespace Pizauth

/-- The thread which causes an observation, for observations several threads can cause. -/
def Obs.thread : Obs → Option Nat
  | .httpReq i _ _ | .httpAnswer i _ | .post i _ _ | .resp i _ _ _ | .errorCmd i _ _ _ | .errorLog i _ _
  | .event i _ _ | .transientCmd i _ _ | .transientCmdEnd i _ => some i
  | _ => none

/-- What thread `i` did, according to the log (newest first). -/
def threadLog (i : Nat) (L : Log) : List Obs := (L.map Prod.snd).filter fun o => o.thread == some i

/-- In the past of `w`, thread `i` made a step of which `P` holds. -/
def DidStep (E : Env) (i : Nat) (w : World) (P : World → World → Prop) : Prop :=
  ∃ w1 w2 inp, Reach E w1 ∧ w1.step E (.run i inp) = some w2 ∧ Steps E w2 w ∧ P w1 w2

/-- There is a history leading from `w0` to `w` so that `P` holds in each of its states (including both ends) and `Q` of
each of its steps. -/
inductive During (E : Env) (P : World → Prop) (Q : World → Action → World → Prop) (w0 : World) : World → Prop where
  | refl : P w0 → During E P Q w0 w0
  | step {w w' : World} (a : Action) : During E P Q w0 w → w.step E a = some w' → Q w a w' → P w' → During E P Q w0 w'

/-- The outcomes of a refresh which may go away by themselves: no connection, name resolution failure, I/O error
(also while reading the answer). -/
def Net.IsTransient (net : Net) : Prop :=
  net = .transport .connectionFailed ∨ net = .transport .dns ∨ net = .transport .io ∨ ∃ m, net = .readErr m

/-- The outcomes of a refresh after which the refresh token is useless: an error status, an answer which is not JSON or
does not grant a token, any other failure of the HTTP client. -/
def Net.IsPermanent (net : Net) : Prop :=
  (∃ code b, net = .status code b) ∨ (∃ m, net = .badJson m) ∨ net = .transport .other ∨
  ∃ b, net = .body b ∧ ¬ ∃ tok x, Issued b tok x

/-- A report to the user of an error concerning account `n`. -/
def Obs.IsErrorReport (o : Obs) (i : Nat) (n msg : String) : Prop :=
  (∃ cmd, o = .errorCmd i cmd n msg) ∨ o = .errorLog i n msg

end Pizauth

import Verif.Model.Cli
import Verif.Spec.Schedule
import Verif.Spec.Status
import Verif.Spec.Client
import Verif.Spec.Reload

/-!
# Specification: what the commands do

How the process of a client command ends, depending on what the server knew when it carried out the request, and what it
knew afterwards.
-/

namespace Pizauth

/-- Nothing but the state of account `n` has changed. -/
def OnlyChanges (n : String) (ls ls' : LockedState) : Prop :=
  ls'.config = ls.config ∧ ∀ m ts, m ≠ n → (Holds ls' m ts ↔ Holds ls m ts)

/-- The message if the user has to authorise: without the URL after `-u`. -/
def unavailable (E : Env) (withUrl : Bool) (url : Url) : String :=
  "Access token unavailable until authorised with URL " ++ if withUrl then E.renderUrl url else ""

/-- A thread was started which is to refresh the token of account `n`, and nothing else has changed. -/
def RefreshStarted (n : String) (w w' : World) : Prop :=
  w'.ls = w.ls ∧ StartedFor w' w.nextTid n ∧ w'.nextTid = w.nextTid + 1 ∧
    ∀ i, i ≠ 0 → i ≠ w.nextTid → w'.threads i = w.threads i

/-- No account has changed and no thread was started. -/
def Unchanged (w w' : World) : Prop :=
  w'.ls = w.ls ∧ w'.nextTid = w.nextTid ∧ ∀ i, i ≠ 0 → w'.threads i = w.threads i

/-- How command `c` ends, if the server carried out its request by a step from `w` to `w'`: what it prints, the error
message, and the exit code. -/
inductive Outcome (E : Env) (w w' : World) : Cmd → Cli.Exit → Prop where
  /-- `show` prints a token which has not expired. -/
  | shown {n : String} {u : Bool} {t : ActiveTok} : HoldsToken w.ls n t → w.now < t.expiry → Unchanged w w' →
      Outcome E w w' (.show n u) ⟨utf8 (t.accessToken ++ "\n"), none, 0⟩
  | refreshing {n : String} {u : Bool} {t : ActiveTok} : HoldsToken w.ls n t → t.expiry ≤ w.now → t.ongoing = true →
      Unchanged w w' →
      Outcome E w w' (.show n u)
        ⟨[], some "Access token has expired. Refreshing is in progress but has not yet succeeded", 1⟩
  | expired {n : String} {u : Bool} {t : ActiveTok} : HoldsToken w.ls n t → t.expiry ≤ w.now → t.ongoing = false →
      RefreshStarted n w w' →
      Outcome E w w' (.show n u) ⟨[], some "Access token has expired. Refreshing initiated", 1⟩
  /-- `show` starts an authorisation if there is none. -/
  | pending {n : String} {u : Bool} {p : PendingTok} : HoldsPending w.ls n p → Unchanged w w' →
      Outcome E w w' (.show n u) ⟨[], some (unavailable E u p.url), 1⟩
  | started {n : String} {u : Bool} {p : PendingTok} : HoldsNothing w.ls n → HoldsPending w'.ls n p →
      OnlyChanges n w.ls w'.ls →
      Outcome E w w' (.show n u) ⟨[], some (unavailable E u p.url), 1⟩
  /-- `refresh` starts a refresh, or an authorisation if there is no token. -/
  | scheduled {n : String} {u : Bool} {t : ActiveTok} : HoldsToken w.ls n t → RefreshStarted n w w' →
      Outcome E w w' (.refresh n u) ⟨[], none, 0⟩
  | restarted {n : String} {u : Bool} {p : PendingTok} : (HoldsNothing w.ls n ∨ ∃ p, HoldsPending w.ls n p) →
      HoldsPending w'.ls n p → OnlyChanges n w.ls w'.ls →
      Outcome E w w' (.refresh n u) ⟨[], some (unavailable E u p.url), 1⟩
  /-- `revoke` removes the token, or the authorisation. -/
  | revoked {n : String} : (∃ ts, Holds w.ls n ts) → HoldsNothing w'.ls n → OnlyChanges n w.ls w'.ls →
      Outcome E w w' (.revoke n) ⟨[], none, 0⟩
  | noAccount {c : Cmd} {n : String} : (∃ u, c = .show n u) ∨ (∃ u, c = .refresh n u) ∨ c = .revoke n →
      w.ls.config.get? n = none → Unchanged w w' →
      Outcome E w w' c ⟨[], some ("No account '" ++ n ++ "'"), 1⟩
  /-- `reload` is going to install the configuration, if it is in order. -/
  | reloaded {conf : Config} {ops : List Op} : conf.Ok E → Unchanged w w' → w'.threads 0 = .install conf :: ops →
      Outcome E w w' .reload ⟨[], none, 0⟩
  | notReloaded {m : String} : Unchanged w w' → w'.threads 0 = [.reply (utf8 ("error:" ++ m)), .close] →
      Outcome E w w' .reload ⟨[], some m, 1⟩
  /-- `restore` keeps all tokens which are there, and adds nothing but tokens from a dump of this program. -/
  | tooShort {d : Bytes} : d.length < 12 → Unchanged w w' →
      Outcome E w w' (.restore d) ⟨[], some "Input too short", 1⟩
  | undecipherable {d : Bytes} : 12 ≤ d.length → E.decrypt (d.take 12) (d.drop 12) = none → Unchanged w w' →
      Outcome E w w' (.restore d) ⟨[], some "Restoring dump failed", 1⟩
  | notRestored {d plain : Bytes} : 12 ≤ d.length → E.decrypt (d.take 12) (d.drop 12) = some plain →
      (∀ dmp, decDump plain = some dmp → dmp.version ≠ 1) → Unchanged w w' →
      Outcome E w w' (.restore d) ⟨[], none, 0⟩
  | restored {d plain : Bytes} {dmp : Dump} : 12 ≤ d.length → E.decrypt (d.take 12) (d.drop 12) = some plain →
      decDump plain = some dmp → dmp.version = 1 → w'.ls.config = w.ls.config →
      (∀ n t, HoldsToken w.ls n t → HoldsToken w'.ls n t) →
      (∀ n ts, Holds w'.ls n ts → Holds w.ls n ts ∨ ∃ tok o x rt t, dmp.Offers w.ls n tok o x rt ∧ ts = .active t ∧
        t.accessToken = tok ∧ t.refreshToken = rt) →
      Outcome E w w' (.restore d) ⟨[], none, 0⟩
  /-- `dump` prints what the server has encrypted. -/
  | dumped {b : Bytes} : Unchanged w w' → w'.threads 0 = [.reply b, .close] → Outcome E w w' .dump ⟨b, none, 0⟩
  | notDumped : Unchanged w w' → w'.threads 0 = [.close] → Outcome E w w' .dump ⟨[], none, 0⟩
  /-- `status` prints a line for each account. -/
  | noAccounts : w.ls.config.accounts = [] → Unchanged w w' →
      Outcome E w w' .status ⟨[], some "No accounts configured", 1⟩
  | status {lines : List String} {text : String → String} : w.ls.config.accounts ≠ [] → lines.Pairwise (· ≤ ·) →
      lines.Perm (w.ls.config.accounts.map fun p => p.1 ++ ": " ++ text p.1) →
      (timeMin ≤ w.wall → w.wall ≤ timeMax →
        ∀ n ts, Holds w.ls n ts → Shown.Text E w.now w.wall (ts.shown w.now) (text n)) → Unchanged w w' →
      Outcome E w w' .status ⟨utf8 ("\n".intercalate lines ++ "\n"), none, 0⟩

end Pizauth

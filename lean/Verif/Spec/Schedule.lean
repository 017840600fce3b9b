import Verif.Spec.Tokens

/-!
# Specification: when tokens are refreshed and when users are reminded
-/

namespace Pizauth

/-- The value of an option which can be set for an account or globally, in nanoseconds. -/
def setting (account global : Option Dur) (defaultSecs : Nat) : Dur :=
  match account, global with
  | some d, _ => d
  | none, some d => d
  | none, none => defaultSecs * 1000000000

def retrySetting (c : Config) (a : Account) : Dur := setting a.refreshRetry c.refreshRetry 40
def beforeSetting (c : Config) (a : Account) : Dur := setting a.refreshBeforeExpiry c.refreshBeforeExpiry 90
def atLeastSetting (c : Config) (a : Account) : Dur := setting a.refreshAtLeast c.refreshAtLeast (90 * 60)

/-- When a token is due if no attempt to refresh it has failed: before it expires, and at the latest a given time after
it was obtained. (If the clock cannot represent the former time, at once; if it cannot represent the latter, that
does not count.) -/
def normalDue (c : Config) (a : Account) (t : ActiveTok) (now : Instant) : Instant :=
  let e : Int := if timeMin ≤ t.expiry - (beforeSetting c a : Int) then t.expiry - (beforeSetting c a : Int) else min now t.expiry
  if t.obtained + (atLeastSetting c a : Int) ≤ timeMax then min e (t.obtained + (atLeastSetting c a : Int)) else e

/-- When a token is due: after an attempt, `refresh_retry` later (unless the clock cannot represent that). -/
def dueTime (c : Config) (a : Account) (t : ActiveTok) (now : Instant) : Instant :=
  match t.lastAttempt with
  | some l => if l + (retrySetting c a : Int) ≤ timeMax then l + (retrySetting c a : Int) else normalDue c a t now
  | none => normalDue c a t now

/-- Account `n` has a token which is not being refreshed, due at `d`. -/
def RefreshAt (ls : LockedState) (now : Instant) (n : String) (d : Instant) : Prop :=
  ∃ t a, HoldsToken ls n t ∧ t.ongoing = false ∧ ls.config.get? n = some a ∧ d = dueTime ls.config a t now

/-- The user is to be told at `d` of the outstanding authorisation of account `n`: at once if they never were, and
`auth_notify_interval` after the last time. -/
def NotifyAt (ls : LockedState) (now : Instant) (n : String) (d : Instant) : Prop :=
  ∃ p, HoldsPending ls n p ∧
    (p.lastNotification = none ∧ d = now ∨
     ∃ l, p.lastNotification = some l ∧ d = l + (ls.config.authNotifyInterval : Int) ∧ d ≤ timeMax)

/-- A wake-up of the refresher was posted, or a thread is about to post one. -/
def RefresherWoken (w : World) : Prop := w.refPred = true ∨ ∃ i, .wakeRefresher ∈ w.threads i

def NotifierWoken (w : World) : Prop := w.notPred = true ∨ ∃ i, .wakeNotifier ∈ w.threads i

/-- Thread `i` was started to refresh account `n`. -/
def StartedFor (w : World) (i : Nat) (n : String) : Prop := ∃ e ∈ w.ls.details, e.name = n ∧ w.threads i = [.rfStart e.id]

/-- A thread was started for account `n`, and the main thread goes on with the answer `b`; nothing else happened. -/
def StartsRefresh (w w' : World) (n : String) (b : Bytes) : Prop :=
  StartedFor w' w.nextTid n ∧ w'.threads 0 = [.reply b, .close] ∧
  (∀ i, i ≠ 0 → i ≠ w.nextTid → w'.threads i = w.threads i) ∧
  w' = { w with threads := w'.threads, nextTid := w.nextTid + 1 }

/-- How long a sleep planned at `now` is, if the times in question are `due`: until the earliest of them, but at most 37
seconds (`none`: without limit). -/
def SleepUntil (now : Instant) (due : Instant → Prop) (s : Option Instant) : Prop :=
  match s with
  | none => ∀ d, ¬ due d
  | some s => (∀ d, due d → s ≤ d) ∧ (now + 37000000000 ≤ timeMax → s ≤ now + 37000000000) ∧
      (due s ∨ s = now + 37000000000) ∧ ∃ d, due d

end Pizauth

import Verif.Model.World

/-!
# Functions which read clocks several times

`Model/State.lean` and `Model/World.lean` read each clock once per critical section. Here are the functions for which
the code reads a clock several times, with one argument for every reading.
-/

namespace Pizauth.Clock

/-- `dump_instant`, src/server/state.rs:477-489: `m1` and `m2` are the readings of `Instant::now()` in lines 479 and 482,
`w1`, `w2` and `w3` those of `SystemTime::now()` in lines 481, 484 and 488. -/
def dumpInstant (m1 m2 : Instant) (w1 w2 w3 : SysTime) (i : Instant) : SysTime :=
  match checkedDurationSince i m1 with
  | some d => (checkedAdd w1 d).getD w3
  | none =>
    match checkedDurationSince m2 i with
    | some d => (checkedSub w2 d).getD w3
    | none => w3

/-- `restore_instant`, src/server/state.rs:512-524: `w1` and `w2` are the readings of `SystemTime::now()` in lines 514 and
517, `m1`, `m2` and `m3` those of `Instant::now()` in lines 516, 519 and 523. -/
def restoreInstant (w1 w2 : SysTime) (m1 m2 m3 : Instant) (t : SysTime) : Instant :=
  match checkedDurationSince t w1 with
  | some d => (checkedAdd m1 d).getD m3
  | none =>
    match checkedDurationSince w2 t with
    | some d => (checkedSub m2 d).getD m3
    | none => m3

/-- The accounts to refresh, src/server/refresher.rs:471-481 (`none`: panic): `now` is the reading in line 472, and
`later id` the one which `refresh_at` makes in line 404 for account `id`. -/
def dueIds (ls : LockedState) (now : Instant) (later : AccountId → Instant) : List AccountId → Option (List AccountId)
  | [] => some []
  | id :: r =>
    match refreshAt ls (later id) id, dueIds ls now later r with
    | some (some t), some l => some (if t ≤ now then id :: l else l)
    | some none, some l => some l
    | _, _ => none

/-- `next_wakeup` of the refresher, src/server/refresher.rs:419-431 (`none`: panic): `early id` is the reading which
`refresh_at` makes in line 404 for account `id`, and `now` the one in line 426. -/
def refresherWakeup (ls : LockedState) (early : AccountId → Instant) (now : Instant) : Option (Option Instant) :=
  (optAll (fun id => refreshAt ls (early id) id) ls.actIds).map (nextWakeup now)

/-- `next_wakeup` of the notifier, src/server/notifier.rs:122-134 (`none`: panic): `early id` is the reading in line 181
for account `id`, and `now` the one in line 129. -/
def notifierWakeup (ls : LockedState) (early : AccountId → Instant) (now : Instant) : Option (Option Instant) :=
  (optAll (fun id => notifyAt ls (early id) id) ls.actIds).map (nextWakeup now)

end Pizauth.Clock

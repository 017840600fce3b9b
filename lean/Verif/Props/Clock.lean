import Verif.Proof.Clock
import Verif.Props.Demo

/-!
# C98: reading a clock again
-/

namespace Pizauth

variable {E : Env}

/-! ## C98 -/

/-- **C98.** The code reads the clocks up to five times to write a time into a dump. If all readings are within `δ` of
the times `n` and `w`, what it writes is within `2δ` of the exact time. -/
theorem C98_dump {δ : Dur} {n m1 m2 : Instant} {w w1 w2 w3 : SysTime} {i : Instant} (hm : m1 ≤ m2)
    (h1 : Near δ m1 n) (h2 : Near δ m2 n) (h3 : Near δ w1 w) (h4 : Near δ w2 w)
    (hlo : -9223372036854775808000000000 + 2 * δ ≤ w + (i - n))
    (hhi : w + (i - n) + 2 * δ ≤ 9223372036854775807999999999) :
    Near (2 * δ) (Clock.dumpInstant m1 m2 w1 w2 w3 i) (w + (i - n)) :=
  Clock.dumpInstant_near hm h1 h2 h3 h4 hlo hhi

/-- **C98.** The same for reading a time from a dump, whatever the wall clock does in between. -/
theorem C98_restore {δ : Dur} {n m1 m2 m3 : Instant} {w w1 w2 t : SysTime}
    (h1 : Near δ w1 w) (h2 : Near δ w2 w) (h3 : Near δ m1 n) (h4 : Near δ m2 n) (h5 : Near δ m3 n)
    (hlo : -9223372036854775808000000000 + 2 * δ ≤ n + (t - w))
    (hhi : n + (t - w) + 2 * δ ≤ 9223372036854775807999999999) :
    Near (2 * δ) (Clock.restoreInstant w1 w2 m1 m2 m3 t) (n + (t - w)) :=
  Clock.restoreInstant_near h1 h2 h3 h4 h5 hlo hhi

/-- **C98.** So a time which is written into a dump and read from it again is, relative to the clock of its machine,
where it was, but for the time that has passed on the wall clock, up to `2δ` for each of the two operations. -/
theorem C98_round_trip {δ δ' : Dur} {n m1 m2 n' m1' m2' m3' : Instant} {w w1 w2 w3 w' w1' w2' : SysTime} {i : Instant}
    (hm : m1 ≤ m2) (h1 : Near δ m1 n) (h2 : Near δ m2 n) (h3 : Near δ w1 w) (h4 : Near δ w2 w)
    (h1' : Near δ' w1' w') (h2' : Near δ' w2' w') (h3' : Near δ' m1' n') (h4' : Near δ' m2' n') (h5' : Near δ' m3' n')
    (hlo : -9223372036854775808000000000 + 2 * δ ≤ w + (i - n))
    (hhi : w + (i - n) + 2 * δ ≤ 9223372036854775807999999999)
    (hlo' : -9223372036854775808000000000 + 2 * δ + 2 * δ' ≤ n' + (w + (i - n) - w'))
    (hhi' : n' + (w + (i - n) - w') + 2 * δ + 2 * δ' ≤ 9223372036854775807999999999) :
    Near (2 * δ + 2 * δ')
      (Clock.restoreInstant w1' w2' m1' m2' m3' (Clock.dumpInstant m1 m2 w1 w2 w3 i) - n') (i - n - (w' - w)) := by
  have ha := C98_dump (w3 := w3) hm h1 h2 h3 h4 hlo hhi
  generalize Clock.dumpInstant m1 m2 w1 w2 w3 i = s at ha ⊢
  have hb := C98_restore (t := s) h1' h2' h3' h4' h5' (by unfold Near at ha; omega) (by unfold Near at ha; omega)
  unfold Near at *
  omega

/-- **C98.** One reading for all is one of the ways in which the clocks can be read. -/
theorem C98_one_reading (n : Instant) (w : SysTime) (i : Instant) (t : SysTime) :
    Clock.dumpInstant n n w w w i = dumpInstant n w i ∧ Clock.restoreInstant w w n n n t = restoreInstant n w t :=
  ⟨rfl, rfl⟩

/-- **C98.** When the refresher and the notifier compute until when to sleep, they read the clock once for each account,
and once more. If the readings are between `m` and `m'`, the time they arrive at is between the ones for `m` and `m'`,
which differ by no more than `m'` and `m`. -/
theorem C98_sleep {ls : LockedState} {m m' now : Instant} {early : AccountId → Instant}
    (h : ∀ id, m ≤ early id ∧ early id ≤ m') (hn : m ≤ now ∧ now ≤ m')
    (hfit : m' + 37000000000 ≤ 9223372036854775807999999999) :
    let R := fun x : Instant => Clock.refresherWakeup ls (fun _ => x) x
    let N := fun x : Instant => Clock.notifierWakeup ls (fun _ => x) x
    Clock.Follows (m' - m) (R m) (Clock.refresherWakeup ls early now) ∧
    Clock.Follows (m' - m) (Clock.refresherWakeup ls early now) (R m') ∧
    Clock.Follows (m' - m) (R m) (R m') ∧
    Clock.Follows (m' - m) (N m) (Clock.notifierWakeup ls early now) ∧
    Clock.Follows (m' - m) (Clock.notifierWakeup ls early now) (N m') ∧
    Clock.Follows (m' - m) (N m) (N m') := by
  have hf : m' + (maxWait : Int) ≤ timeMax := hfit
  have hf' : now + (maxWait : Int) ≤ timeMax := by omega
  refine ⟨?_, ?_, ?_, ?_, ?_, ?_⟩
  · exact Clock.wakeup_follows hn.1 (by omega)
      (fun id _ => (Clock.refreshAt_follows (h id).1).weaken (by have := h id; omega)) hf'
  · exact Clock.wakeup_follows hn.2 (by omega)
      (fun id _ => (Clock.refreshAt_follows (h id).2).weaken (by have := h id; omega)) hf
  · exact Clock.wakeup_follows (by omega) (by omega) (fun id _ => Clock.refreshAt_follows (by omega)) hf
  · exact Clock.wakeup_follows hn.1 (by omega)
      (fun id _ => (Clock.notifyAt_follows (h id).1).weaken (by have := h id; omega)) hf'
  · exact Clock.wakeup_follows hn.2 (by omega)
      (fun id _ => (Clock.notifyAt_follows (h id).2).weaken (by have := h id; omega)) hf
  · exact Clock.wakeup_follows (by omega) (by omega) (fun id _ => Clock.notifyAt_follows (by omega)) hf

/-- **C98, partially.** Which tokens the refresher finds due does not depend on the readings after the first one.
Missing: tokens for which `refresh_before_expiry` is so long that the clock has no time so far before their expiry. -/
theorem C98_scan_partial {ls : LockedState} {now : Instant} {later : AccountId → Instant} {ids : List AccountId}
    (h : ∀ n t a, HoldsToken ls n t → ls.config.get? n = some a →
      -9223372036854775808000000000 ≤
        t.expiry - ((a.refreshBeforeExpiry.getD (ls.config.refreshBeforeExpiry.getD (90 * 1000000000)) : Nat) : Int)) :
    Clock.dueIds ls now later ids = dueIds ls now ids := by
  refine Clock.dueIds_same ids fun id _ => Clock.refreshAt_const (fun t a ht ha => ?_) _ _
  unfold LockedState.tokenstate at ht
  unfold LockedState.account at ha
  cases he : ls.details.find? (fun x => x.id == id) with
  | none => rw [he] at ht; cases ht
  | some e =>
    rw [he] at ht ha
    have h1 : e.ts = .active t := by simpa using ht
    have := h e.name t a ⟨e, List.mem_of_find?_eq_some he, rfl, h1⟩ ha
    unfold Account.effRefreshBeforeExpiry
    cases h2 : a.refreshBeforeExpiry <;> cases h3 : ls.config.refreshBeforeExpiry <;> rw [h2, h3] at this <;> exact this

namespace Demo.Clock

/-- The demo's configuration with the longest `refresh_before_expiry`. -/
def confLong : Config := { conf with refreshBeforeExpiry := some (secs 18446744073709551615) }

/-- Account "a" has got a token, then the configuration is changed. -/
def sLong : List Action := sToken ++ [.connect (utf8 "reload:")] ++ [.run 0 { conf := .ok confLong }] ++ n0 5

example : (after sLong).ls.config = confLong ∧ (after sLong).ls.details.any (fun e => e.ts matches .active _) = true := by
  decide +kernel

/-- A millisecond passes between the readings. -/
example : Clock.dumpInstant 0 1000000 1700000000000000000 1700000000001000000 1700000000001000000 500000 =
    1700000000000500000 ∧
    Clock.restoreInstant 1700000000000000000 1700000000001000000 0 1000000 1000000 1700000000000500000 = 500000 := by
  decide +kernel

/-- The wall clock is put back between the readings: the time is neither in the future nor in the past. -/
example : Clock.restoreInstant 10 3 0 1 2 5 = 2 := by decide +kernel

example : Clock.refresherWakeup (after sToken).ls (fun _ => 5) 7 = some (some 37000000007) ∧
    Clock.notifierWakeup (after sAsk).ls (fun _ => 5) 7 = some (some 5) := by decide +kernel

/-- With the demo's own configuration, the readings make no difference. -/
example : Clock.dueIds (after sToken).ls 3600000000000 (fun _ => 3700000000000) (after sToken).ls.actIds =
    dueIds (after sToken).ls 3600000000000 (after sToken).ls.actIds :=
  C98_scan_partial fun n t a ht ha => by
    have h : ∀ e ∈ (after sToken).ls.details, ∀ t, e.ts = .active t → 0 ≤ t.expiry := by
      have h1 : (after sToken).ls.details.all (fun e => match e.ts with
        | .active t => decide (0 ≤ t.expiry)
        | _ => true) = true := by decide +kernel
      intro e he t ht
      have := List.all_eq_true.mp h1 e he
      rw [ht] at this
      simpa using this
    obtain ⟨e, he, _, h2⟩ := ht
    have h3 := h e he t h2
    have h4 : (after sToken).ls.config.refreshBeforeExpiry = none := by decide +kernel
    have h5 : (after sToken).ls.config.accounts.all (fun x => x.2.refreshBeforeExpiry.isNone) = true := by decide +kernel
    have h6 : a.refreshBeforeExpiry = none := by
      have := List.all_eq_true.mp h5 (n, a) (by
        unfold Config.get? at ha
        exact mem_of_lookup ha)
      simpa using this
    rw [h4, h6]
    simp only [Option.getD_none]
    omega

end Demo.Clock

/-- **C98 fails** for such tokens: with one reading of the clock, the token would be due at any time, and the refresher
computes that it is not to sleep; but `refresh_at` reads the clock after the refresher has done so, and returns a time
which is later than the one it is compared with. So the refresher finds nothing to do and goes round its loop again, until
the token expires or `refresh_at_least` has passed. -/
theorem C98_not : ∃ w : World, Reach Demo.env w ∧
    ∀ later : AccountId → Instant, (∀ id, w.now < later id) →
      Clock.dueIds w.ls w.now later w.ls.actIds = some [] ∧ dueIds w.ls w.now w.ls.actIds ≠ some [] ∧
      Clock.refresherWakeup w.ls (fun _ => w.now) w.now = some (some w.now) := by
  refine ⟨Demo.after Demo.Clock.sLong, Demo.after_reach _, fun later hl => ⟨?_, by decide +kernel, by decide +kernel⟩⟩
  have hn : (Demo.after Demo.Clock.sLong).now = 0 := by decide +kernel
  have hi : (Demo.after Demo.Clock.sLong).ls.actIds = [3, 1] := by decide +kernel
  have h3 : refreshAt (Demo.after Demo.Clock.sLong).ls 1 3 = some (some 1) := by decide +kernel
  have h1 : refreshAt (Demo.after Demo.Clock.sLong).ls 1 1 = some none := by decide +kernel
  have k3 := hl 3
  have k1 := hl 1
  rw [hn] at k3 k1
  have f3 := Clock.refreshAt_follows (ls := (Demo.after Demo.Clock.sLong).ls) (id := 3) (Int.add_one_le_iff.mpr k3)
  have f1 := Clock.refreshAt_follows (ls := (Demo.after Demo.Clock.sLong).ls) (id := 1) (Int.add_one_le_iff.mpr k1)
  rw [show (0 : Int) + 1 = 1 from rfl] at f3 f1
  rw [h3] at f3
  rw [h1] at f1
  rw [hn, hi]
  simp only [Clock.dueIds]
  revert f3 f1
  generalize refreshAt (Demo.after Demo.Clock.sLong).ls (later 3) 3 = x
  generalize refreshAt (Demo.after Demo.Clock.sLong).ls (later 1) 1 = y
  intro f3 f1
  match x, y, f3, f1 with
  | some (some t), some none, ⟨h, _⟩, _ => simp only [if_neg (by omega : ¬ t ≤ 0)]

end Pizauth

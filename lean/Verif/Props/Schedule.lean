import Verif.Proof.Schedule
import Verif.Props.Demo

/-!
# C14, C15, C16, C29: when tokens are refreshed and users reminded
-/

namespace Pizauth
open LockedState

variable {E : Env}

/-! ## C14: which tokens the refresher refreshes -/

/-- **C14.** When the refresher looks at the tokens, it starts a refresh for exactly those which are due: it starts one
thread for each, and nothing else happens to any thread. -/
theorem C14_scan {w w' : World} (hr : Reach E w) (hp : w.refPc = .scan) (hs : w.step E .refresher = some w') :
    w'.ls = w.ls ∧ (∀ i, i < w.nextTid → w'.threads i = w.threads i) ∧
    (∀ i, w.nextTid ≤ i → w'.threads i = [] ∨ ∃ n, StartedFor w' i n) ∧
    (∀ n, (∃ i, w.nextTid ≤ i ∧ StartedFor w' i n) ↔ ∃ d, RefreshAt w.ls w.now n d ∧ d ≤ w.now) ∧
    (∀ i j n, w.nextTid ≤ i → w.nextTid ≤ j → StartedFor w' i n → StartedFor w' j n → i = j) := by
  have h0 := hr.inv0
  have hst := (stepR_of_step h0.wf hs).2
  cases hst with
  | refCompute h => rw [hp] at h; cases h
  | refWait h _ => rw [hp] at h; cases h
  | @refScan es _ hes =>
    have hsub : ∀ e ∈ es, e ∈ w.ls.details := fun e he => by rw [hes] at he; exact (List.mem_filter.mp he).1
    have hdue : ∀ e ∈ w.ls.details, e ∈ es ↔ ∃ d, RefreshAt w.ls w.now e.name d ∧ d ≤ w.now := by
      intro e he
      rw [hes, List.mem_filter]
      simp only [Option.any_eq_true, decide_eq_true_eq]
      constructor
      · rintro ⟨_, d, h1, h2⟩; exact ⟨d, (refreshDueE_some h0.wf he).mp h1, h2⟩
      · rintro ⟨d, h1, h2⟩; exact ⟨he, d, (refreshDueE_some h0.wf he).mpr h1, h2⟩
    have hnd : (es.map Entry.id).Nodup := by
      rw [hes]
      exact h0.wf.ids.sublist ((List.filter_sublist).map _)
    have hlen : (es.map fun e : Entry => Op.rfStart e.id).length = es.length := by simp
    have hnew : ∀ i, w.nextTid ≤ i → (i < w.nextTid + es.length ∧ ∃ e ∈ es, ∃ hk : i - w.nextTid < es.length,
          e = es[i - w.nextTid] ∧ spawnAll w.threads w.nextTid (es.map fun e => .rfStart e.id) i = [.rfStart e.id]) ∨
        spawnAll w.threads w.nextTid (es.map fun e => .rfStart e.id) i = [] := by
      intro i hi
      rcases Nat.lt_or_ge i (w.nextTid + es.length) with hl | hl
      · left
        have hk : i - w.nextTid < es.length := by omega
        refine ⟨hl, es[i - w.nextTid], List.getElem_mem hk, hk, rfl, ?_⟩
        have := spawnAll_get (es.map fun e => Op.rfStart e.id) w.threads w.nextTid (i - w.nextTid) (by simpa using hk)
        rw [show w.nextTid + (i - w.nextTid) = i by omega] at this
        rw [this]; simp
      · right
        rw [spawnAll_ge _ _ _ _ (by simpa using hl)]
        exact h0.tids i hi
    refine ⟨rfl, fun i hi => spawnAll_lt _ _ _ _ hi, fun i hi => ?_, fun n => ?_, ?_⟩
    · rcases hnew i hi with ⟨_, e, he, _, _, h⟩ | h
      · exact .inr ⟨e.name, e, hsub e he, rfl, h⟩
      · exact .inl h
    · constructor
      · rintro ⟨i, hi, e, he, rfl, ht⟩
        rcases hnew i hi with ⟨_, e1, he1, _, _, h⟩ | h
        · dsimp only at ht
          rw [h] at ht
          simp only [List.cons.injEq, Op.rfStart.injEq, and_true] at ht
          have := h0.wf.entry_id_inj (hsub e1 he1) he ht
          subst this
          exact (hdue e1 he).mp he1
        · dsimp only at ht; rw [h] at ht; cases ht
      · intro hd
        obtain ⟨d, ⟨t, a, ⟨e, he, rfl, hts⟩, hrest⟩, hle⟩ := id hd
        have hm := (hdue e he).mpr hd
        obtain ⟨k, hk, hke⟩ := List.mem_iff_getElem.mp hm
        refine ⟨w.nextTid + k, by omega, e, he, rfl, ?_⟩
        have := spawnAll_get (es.map fun e => Op.rfStart e.id) w.threads w.nextTid k (by simpa using hk)
        dsimp only
        rw [this]; simp [hke]
    · rintro i j n hi hj ⟨e, he, rfl, h1⟩ ⟨e', he', hn, h2⟩
      have := h0.wf.entry_name_inj he' he hn
      subst this
      dsimp only at h1 h2
      rcases hnew i hi with ⟨_, e1, he1, hk1, hg1, h1'⟩ | h1'
      · rcases hnew j hj with ⟨_, e2, he2, hk2, hg2, h2'⟩ | h2'
        · rw [h1'] at h1
          rw [h2'] at h2
          simp only [List.cons.injEq, Op.rfStart.injEq, and_true] at h1 h2
          have hk : i - w.nextTid = j - w.nextTid := by
            have e12 : (es.map Entry.id)[i - w.nextTid]'(by simpa using hk1) =
                (es.map Entry.id)[j - w.nextTid]'(by simpa using hk2) := by
              simp only [List.getElem_map, ← hg1, ← hg2]
              rw [h1, h2]
            have hp := List.pairwise_iff_getElem.mp hnd
            rcases Nat.lt_trichotomy (i - w.nextTid) (j - w.nextTid) with hl | hl | hl
            · exact absurd e12 (hp _ _ _ _ hl)
            · exact hl
            · exact absurd e12.symm (hp _ _ _ _ hl)
          omega
        · rw [h2'] at h2; cases h2
      · rw [h1'] at h1; cases h1

/-- The refresh times of the token of an account. -/
theorem refreshAt_iff {ls : LockedState} {now d : Instant} {n : String} {t : ActiveTok} {a : Account} (hwf : ls.WF)
    (ht : HoldsToken ls n t) (ha : ls.config.get? n = some a) :
    RefreshAt ls now n d ↔ t.ongoing = false ∧ d = dueTime ls.config a t now := by
  obtain ⟨e, he, hn, hts⟩ := ht
  constructor
  · rintro ⟨t', a', ⟨e', he', hn', hts'⟩, ho', ha', rfl⟩
    have := hwf.entry_name_inj he he' (hn.trans hn'.symm)
    subst this
    rw [hts] at hts'
    cases hts'
    rw [ha] at ha'
    cases ha'
    exact ⟨ho', rfl⟩
  · rintro ⟨ho, rfl⟩
    exact ⟨t, a, ⟨e, he, hn, hts⟩, ho, ha, rfl⟩

/-- **C14.** After a failed attempt, the next one is due exactly `refresh_retry` later: the setting of the account, or
else the global one, or else 40 seconds. -/
theorem C14_retry {w : World} {l d : Instant} {n : String} {t : ActiveTok} {a : Account} (hr : Reach E w)
    (ht : HoldsToken w.ls n t) (ho : t.ongoing = false) (ha : w.ls.config.get? n = some a) (hl : t.lastAttempt = some l)
    {r : Nat} (hset : r = a.refreshRetry.getD (w.ls.config.refreshRetry.getD (40 * 1000000000)))
    (hc : l + (r : Int) ≤ timeMax) : RefreshAt w.ls w.now n d ↔ d = l + (r : Int) := by
  have hset' : retrySetting w.ls.config a = r := by
    rw [hset]; unfold retrySetting setting
    cases a.refreshRetry <;> cases w.ls.config.refreshRetry <;> rfl
  rw [refreshAt_iff hr.inv0.wf ht ha]
  simp only [ho, true_and, dueTime, hl, hset', hc, if_true]

/-- **C14.** Otherwise the token is due `refresh_before_expiry` before it expires, or `refresh_at_least` after it was
obtained if that is earlier. -/
theorem C14_normal {w : World} {d : Instant} {n : String} {t : ActiveTok} {a : Account} (hr : Reach E w)
    (ht : HoldsToken w.ls n t) (ho : t.ongoing = false) (ha : w.ls.config.get? n = some a) (hl : t.lastAttempt = none)
    {b o : Nat} (hb : b = a.refreshBeforeExpiry.getD (w.ls.config.refreshBeforeExpiry.getD (90 * 1000000000)))
    (ho' : o = a.refreshAtLeast.getD (w.ls.config.refreshAtLeast.getD (90 * 60 * 1000000000)))
    (hc1 : timeMin ≤ t.expiry - (b : Int)) (hc2 : t.obtained + (o : Int) ≤ timeMax) :
    RefreshAt w.ls w.now n d ↔ d = min (t.expiry - (b : Int)) (t.obtained + (o : Int)) := by
  have hb' : beforeSetting w.ls.config a = b := by
    rw [hb]; unfold beforeSetting setting
    cases a.refreshBeforeExpiry <;> cases w.ls.config.refreshBeforeExpiry <;> rfl
  have ho'' : atLeastSetting w.ls.config a = o := by
    rw [ho']; unfold atLeastSetting setting
    cases a.refreshAtLeast <;> cases w.ls.config.refreshAtLeast <;> rfl
  rw [refreshAt_iff hr.inv0.wf ht ha]
  simp only [ho, true_and, dueTime, hl, normalDue, hb', ho'', hc1, hc2, if_true]

/-- **C14.** Without a failed attempt, a token is due before it expires, whatever the settings and the clock. -/
theorem C14_before_expiry {w : World} {d : Instant} {n : String} {t : ActiveTok} (hr : Reach E w)
    (ht : HoldsToken w.ls n t) (hl : t.lastAttempt = none) (hd : RefreshAt w.ls w.now n d) : d ≤ t.expiry := by
  obtain ⟨t', a, ht', _, ha, _⟩ := id hd
  rw [refreshAt_iff hr.inv0.wf ht ha] at hd
  rw [hd.2]
  simp only [dueTime, hl, normalDue]
  split <;> split <;> omega

/-- **C14.** Every token which is not being refreshed has exactly one due time; one which is has none. -/
theorem C14_unique {w : World} {n : String} {t : ActiveTok} (hr : Reach E w) (ht : HoldsToken w.ls n t) :
    (t.ongoing = false → ∃ d, ∀ d', RefreshAt w.ls w.now n d' ↔ d' = d) ∧
    (t.ongoing = true → ∀ d, ¬ RefreshAt w.ls w.now n d) := by
  obtain ⟨e, he, hn, hts⟩ := id ht
  obtain ⟨a, ha⟩ := hr.inv0.wf.has he
  have ha' : w.ls.config.get? n = some a := hn ▸ ha.2
  constructor
  · intro ho
    refine ⟨dueTime w.ls.config a t w.now, fun d' => ?_⟩
    rw [refreshAt_iff hr.inv0.wf ht ha']
    simp [ho]
  · intro ho d hd
    rw [refreshAt_iff hr.inv0.wf ht ha'] at hd
    rw [ho] at hd
    cases hd.1

/-! ## C15, C29: no sleep is too long -/

/-- **C15.** While the refresher sleeps, for every token with a due time: it wakes up by then, or its wake-up was posted
or is about to be posted. -/
theorem C15_no_oversleep {w : World} {s : Option Instant} {n : String} {d : Instant} (hr : Reach E w)
    (hw : w.refPc = .wait s) (hd : RefreshAt w.ls w.now n d) :
    (∃ x, s = some x ∧ x ≤ d) ∨ RefresherWoken w := Reach.refSched w hr s hw n d hd

/-- **C29.** The same for the notifier and outstanding authorisations. -/
theorem C29_no_oversleep {w : World} {s : Option Instant} {n : String} {d : Instant} (hr : Reach E w)
    (hw : w.notPc = .wait s) (hd : NotifyAt w.ls w.now n d) :
    (∃ x, s = some x ∧ x ≤ d) ∨ NotifierWoken w := Reach.notSched w hr s hw n d hd

theorem waitOver_iff {p : Bool} {s : Option Instant} {now : Instant} :
    World.waitOver p s now = true ↔ p = true ∨ ∃ x, s = some x ∧ x < now := by
  unfold World.waitOver checkedDurationSince
  cases s with
  | none => simp
  | some x =>
    simp only [Bool.or_eq_true, Option.some.injEq, exists_eq_left']
    by_cases h : now ≤ x
    · simp only [h, if_true]; simp; omega
    · simp only [h, if_false]; simp; omega

/-- **C15.** The refresher goes on in every state but while it sleeps; and it stops sleeping as soon as it was woken or
the time it set is over. -/
theorem C15_progress {w : World} (hp : w.proc = .running) :
    (∃ w', w.step E .refresher = some w') ↔
      ∀ s, w.refPc = .wait s → w.refPred = true ∨ ∃ x, s = some x ∧ x < w.now := by
  unfold World.step
  rw [hp]
  simp only [World.stepRefresher]
  cases hpc : w.refPc with
  | compute => simp only [reduceCtorEq, false_implies, implies_true, iff_true]; split <;> exact ⟨_, rfl⟩
  | scan => simp only [reduceCtorEq, false_implies, implies_true, iff_true]; split <;> exact ⟨_, rfl⟩
  | wait s =>
    simp only [Pc.wait.injEq, forall_eq']
    rw [← waitOver_iff]
    cases World.waitOver w.refPred s w.now <;> simp

/-- **C15.** So if a token is due, the refresher is ready to go on, unless a thread is about to wake it. -/
theorem C15_due {w : World} {n : String} {d : Instant} (hr : Reach E w) (hp : w.proc = .running)
    (hd : RefreshAt w.ls w.now n d) (hlt : d < w.now) :
    (∃ w', w.step E .refresher = some w') ∨ ∃ i, .wakeRefresher ∈ w.threads i := by
  rw [C15_progress hp]
  by_cases hi : ∃ i, .wakeRefresher ∈ w.threads i
  · exact .inr hi
  · left
    intro s hs
    rcases C15_no_oversleep hr hs hd with ⟨x, rfl, hle⟩ | h | h
    · exact .inr ⟨x, rfl, by omega⟩
    · exact .inl h
    · exact absurd h hi

theorem SleepUntil.congr {now : Instant} {p q : Instant → Prop} (h : ∀ d, p d ↔ q d) {s : Option Instant}
    (hs : SleepUntil now p s) : SleepUntil now q s := by
  have : p = q := funext fun d => propext (h d)
  exact this ▸ hs

theorem started_scan {w : World} {n : String} {d : Instant} (hr : Reach E w) (hp : w.proc = .running)
    (hd : RefreshAt w.ls w.now n d) (hle : d ≤ w.now) (hpc : w.refPc = .scan) :
    ∃ w', w.run E [.refresher] = some w' ∧ ∃ i, StartedFor w' i n := by
  obtain ⟨w', hs⟩ := (C15_progress (E := E) hp).mpr (fun s h => by rw [hpc] at h; cases h)
  refine ⟨w', by simp [World.run, hs], ?_⟩
  obtain ⟨i, _, h⟩ := ((C14_scan hr hpc hs).2.2.2.1 n).mpr ⟨d, hd, hle⟩
  exact ⟨i, h⟩

theorem started_wait {w : World} {n : String} {d : Instant} {s : Option Instant} (hr : Reach E w)
    (hp : w.proc = .running) (hd : RefreshAt w.ls w.now n d) (hlt : d < w.now) (hpc : w.refPc = .wait s)
    (hen : w.refPred = true ∨ ∃ x, s = some x ∧ x < w.now) :
    ∃ w', w.run E [.refresher, .refresher] = some w' ∧ ∃ i, StartedFor w' i n := by
  have hs : w.step E .refresher = some { w with refPred := false, refPc := .scan } := by
    unfold World.step
    rw [hp]
    simp only [World.stepRefresher, hpc]
    rw [if_pos (waitOver_iff.mpr hen), hp]
  have hr' := Reach.step _ hr hs
  obtain ⟨w', h1, h2⟩ := started_scan hr' hp hd (by dsimp only; omega) rfl
  exact ⟨w', by simpa [World.run, hs] using h1, h2⟩

/-- **C15.** Once a token is due and the refresher can go on, it takes at most three steps until a refresh of the token
is started. -/
theorem C15_started {w w1 : World} {n : String} {d : Instant} (hr : Reach E w) (hp : w.proc = .running)
    (hd : RefreshAt w.ls w.now n d) (hlt : d < w.now) (hen : w.step E .refresher = some w1) :
    ∃ k, k ≤ 3 ∧ ∃ w', w.run E (List.replicate k .refresher) = some w' ∧ ∃ i, StartedFor w' i n := by
  have hen' := (C15_progress hp).mp ⟨w1, hen⟩
  cases hpc : w.refPc with
  | scan => exact ⟨1, by omega, started_scan hr hp hd (by omega) hpc⟩
  | wait s => exact ⟨2, by omega, started_wait hr hp hd hlt hpc (hen' s hpc)⟩
  | compute =>
    have hst := (stepR_of_step hr.inv0.wf hen).2
    have hr' := Reach.step _ hr hen
    cases hst with
    | refWait h _ => rw [hpc] at h; cases h
    | refScan h _ => rw [hpc] at h; cases h
    | refCompute h =>
      have hsp := (nextWakeup_spec w.now (w.ls.details.map (refreshDueE w.ls w.now))).congr
        fun d => refresher_due hr.inv0.wf
      have hx : ∃ x, nextWakeup w.now (w.ls.details.map (refreshDueE w.ls w.now)) = some x ∧ x < w.now := by
        cases hn : nextWakeup w.now (w.ls.details.map (refreshDueE w.ls w.now)) with
        | none => rw [hn] at hsp; exact absurd ⟨n, hd⟩ (hsp d)
        | some x =>
          rw [hn] at hsp
          have := hsp.1 d ⟨n, hd⟩
          exact ⟨x, rfl, by omega⟩
      obtain ⟨w', h1, h2⟩ := started_wait hr' hp hd hlt rfl (.inr hx)
      exact ⟨3, by omega, w', by simpa [World.run, hen, List.replicate] using h1, h2⟩

/-- **C29.** The same for the notifier. -/
theorem C29_progress {w : World} (hp : w.proc = .running) :
    (∃ w', w.step E .notifier = some w') ↔
      ∀ s, w.notPc = .wait s → w.notPred = true ∨ ∃ x, s = some x ∧ x < w.now := by
  unfold World.step
  rw [hp]
  simp only [World.stepNotifier]
  cases hpc : w.notPc with
  | compute => simp only [reduceCtorEq, false_implies, implies_true, iff_true]; split <;> exact ⟨_, rfl⟩
  | scan => simp only [reduceCtorEq, false_implies, implies_true, iff_true]; split <;> exact ⟨_, rfl⟩
  | wait s =>
    simp only [Pc.wait.injEq, forall_eq']
    rw [← waitOver_iff]
    cases World.waitOver w.notPred s w.now <;> simp

theorem C29_due {w : World} {n : String} {d : Instant} (hr : Reach E w) (hp : w.proc = .running)
    (hd : NotifyAt w.ls w.now n d) (hlt : d < w.now) :
    (∃ w', w.step E .notifier = some w') ∨ ∃ i, .wakeNotifier ∈ w.threads i := by
  rw [C29_progress hp]
  by_cases hi : ∃ i, .wakeNotifier ∈ w.threads i
  · exact .inr hi
  · left
    intro s hs
    rcases C29_no_oversleep hr hs hd with ⟨x, rfl, hle⟩ | h | h
    · exact .inr ⟨x, rfl, by omega⟩
    · exact .inl h
    · exact absurd h hi

/-! ## C16: how long sleeps are -/

/-- **C16.** The refresher plans to sleep until the earliest due time, but for at most 37 seconds; without limit only if
no token has a due time. -/
theorem C16_refresher {w w' : World} {s : Option Instant} (hr : Reach E w) (hs : w.step E .refresher = some w')
    (hw : w'.refPc = .wait s) :
    w' = { w with refPc := .wait s } ∧ SleepUntil w.now (fun d => ∃ n, RefreshAt w.ls w.now n d) s := by
  have h0 := hr.inv0
  have hst := (stepR_of_step h0.wf hs).2
  cases hst with
  | refCompute h =>
    cases hw
    exact ⟨rfl, (nextWakeup_spec _ _).congr fun d => refresher_due h0.wf⟩
  | refWait h _ => cases hw
  | refScan h _ => cases hw

/-- **C16.** The same for the notifier. -/
theorem C16_notifier {w w' : World} {s : Option Instant} (hr : Reach E w) (hs : w.step E .notifier = some w')
    (hw : w'.notPc = .wait s) :
    w' = { w with notPc := .wait s } ∧ SleepUntil w.now (fun d => ∃ n, NotifyAt w.ls w.now n d) s := by
  have h0 := hr.inv0
  have hst := (stepR_of_step h0.wf hs).2
  cases hst with
  | notCompute h =>
    cases hw
    exact ⟨rfl, (nextWakeup_spec _ _).congr fun d => notifier_due h0.wf⟩
  | notWait h _ => cases hw
  | notScan h _ => cases hw

/-! ## Examples -/

open Demo

/-- The due time of the only token there is, found by computation. -/
theorem refreshAt_of {ls : LockedState} {now d : Instant} {n : String} (h : ls.WF)
    (hd : (ls.details.filter fun e => e.name == n).map (refreshDueE ls now) = [some d]) : RefreshAt ls now n d := by
  have : some d ∈ (ls.details.filter fun e => e.name == n).map (refreshDueE ls now) := by rw [hd]; simp
  obtain ⟨e, he, hd'⟩ := List.mem_map.mp this
  obtain ⟨he, hn⟩ := List.mem_filter.mp he
  have hn : e.name = n := by simpa using hn
  exact hn ▸ (refreshDueE_some h he).mp hd'

theorem notifyAt_of {ls : LockedState} {now d : Instant} {n : String} (h : ls.WF)
    (hd : (ls.details.filter fun e => e.name == n).map (notifyDueE ls now) = [some d]) : NotifyAt ls now n d := by
  have : some d ∈ (ls.details.filter fun e => e.name == n).map (notifyDueE ls now) := by rw [hd]; simp
  obtain ⟨e, he, hd'⟩ := List.mem_map.mp this
  obtain ⟨he, hn⟩ := List.mem_filter.mp he
  have hn : e.name = n := by simpa using hn
  exact hn ▸ (notifyDueE_some h he).mp hd'

/-- C14: a token which is valid for an hour is due 90 seconds before it expires. -/
example : RefreshAt (after sToken).ls (after sToken).now "a" 3510000000000 :=
  refreshAt_of (after_reach _).inv0.wf (by decide +kernel)

/-- The refresher looks at the tokens 3511 seconds later. -/
def sDue : List Action := sToken ++ [.tick (secs 3511), .refresher, .refresher]

example : (w0.run env sDue).isSome = true ∧ (after sDue).refPc = .scan := by decide +kernel

/-- C14: it starts a refresh. -/
example : ∃ w' i, (after sDue).step env .refresher = some w' ∧ StartedFor w' i "a" := by
  have hd : RefreshAt (after sDue).ls (after sDue).now "a" 3510000000000 :=
    refreshAt_of (after_reach _).inv0.wf (by decide +kernel)
  have hs : (after sDue).step env .refresher = some (andThen (after sDue) [.refresher]) :=
    andThen_one (by decide +kernel)
  obtain ⟨i, _, h⟩ := ((C14_scan (after_reach sDue) (by decide +kernel) hs).2.2.2.1 "a").mpr ⟨_, hd, by decide +kernel⟩
  exact ⟨_, i, hs, h⟩

/-- C14: one second before the token is due, it does not. -/
example : (after (sToken ++ [.tick (secs 3509), .refresher, .refresher])).refPc = .scan ∧
    ((after (sToken ++ [.tick (secs 3509), .refresher, .refresher])).step env .refresher).map World.nextTid =
      some (after sToken).nextTid := by
  decide +kernel

/-- The refresher thread goes to sleep first, without limit; then a token arrives. -/
def sAsleep : List Action := [.refresher, .notifier] ++ sToken

/-- C15: the wake-up was posted. -/
example : (w0.run env sAsleep).isSome = true ∧ (after sAsleep).refPc = .wait none ∧ (after sAsleep).refPred = true := by
  decide +kernel

example : RefreshAt (after sAsleep).ls (after sAsleep).now "a" 3510000000000 :=
  refreshAt_of (after_reach _).inv0.wf (by decide +kernel)

/-- C15: the wake-up is about to be posted. -/
example : (after ([.refresher, .notifier] ++ sCallback ++ n1 1)).refPc = .wait none ∧
    (after ([.refresher, .notifier] ++ sCallback ++ n1 1)).refPred = false ∧
    ((after ([.refresher, .notifier] ++ sCallback ++ n1 1)).threads 1).any (fun o => o matches .wakeRefresher) = true := by
  decide +kernel

/-- C29: an authorisation which the user was never told of is due at once; the notifier was woken. -/
example : NotifyAt (after ([.notifier] ++ sAsk)).ls (after ([.notifier] ++ sAsk)).now "a" 0 ∧
    (after ([.notifier] ++ sAsk)).notPc = .wait none ∧ (after ([.notifier] ++ sAsk)).notPred = true :=
  ⟨notifyAt_of (after_reach _).inv0.wf (by decide +kernel), by decide +kernel⟩

/-- C29: and next 15 minutes after they were. -/
example : NotifyAt (after (sAsk ++ [.notifier, .notifier, .notifier])).ls
    (after (sAsk ++ [.notifier, .notifier, .notifier])).now "a" 900000000000 :=
  notifyAt_of (after_reach _).inv0.wf (by decide +kernel)

/-- C16: with a token which is due in an hour, the refresher sleeps for 37 seconds; without any, without limit. -/
example : (after (sToken ++ [.refresher])).refPc = .wait (some 37000000000) ∧
    (after [.refresher]).refPc = .wait none := by
  decide +kernel

end Pizauth

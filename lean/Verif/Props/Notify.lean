import Verif.Spec.Notify
import Verif.Props.Schedule
import Verif.Proof.Pending
import Verif.Proof.Obs

/-!
# C28, C30: reminders
-/

namespace Pizauth
open LockedState

variable {E : Env}

theorem notifyDue_iff {interval : Dur} {now : Instant} {p : PendingTok} :
    notifyDue interval now p = true ↔
      ∀ l, p.lastNotification = some l → l + (interval : Int) ≤ now ∨ timeMax < l + (interval : Int) := by
  unfold notifyDue checkedAdd
  cases p.lastNotification with
  | none => simp
  | some l =>
    simp only [Option.some.injEq, forall_eq']
    by_cases h : l + (interval : Int) ≤ timeMax
    · simp only [h, if_true]; simp; omega
    · simp only [h, if_false]; simp; omega

/-! ## C30: what reminders are about -/

/-- **C30.** `auth_notify_cmd` is asked for only by the notifier, only for an account which has an outstanding
authorisation, with its name and the URL of that authorisation; and the command is the configured one. -/
theorem C30_url {w w' : World} {a : Action} {t : Instant} {cmd n url : String} {l : Log} (hr : Reach E w)
    (hs : w.step E a = some w') (hl : w'.log = l ++ w.log) (hm : (t, .authCmd cmd n url) ∈ l) :
    a = .notifier ∧ t = w.now ∧ w.ls.config.authNotifyCmd = some cmd ∧
      ∃ p, HoldsPending w.ls n p ∧ url = E.renderUrl p.url := by
  obtain ⟨l', h1, h2⟩ := (stepR_of_step hr.inv0.wf hs).2.log_new
  have : l' = l := List.append_cancel_right (h1.symm.trans hl)
  subst this
  have ht : t = w.now := (h2 _ hm).1
  have hn : NewObs E w a w' (.authCmd cmd n url) := (h2 _ hm).2
  generalize ho : Obs.authCmd cmd n url = o at hn
  cases hn <;> try cases ho
  case run hth hx ho' => exfalso; cases hx <;> simp at ho'
  case auth e p hpc he hd hnr hc =>
    exact ⟨rfl, ht, hc, p, ⟨e, he, rfl, (dueEntry_some.mp hd).1⟩, rfl⟩

/-! ## C28: when users are reminded -/

/-- **C28.** When the notifier looks, it reminds the user of exactly those outstanding authorisations of which they were
never told, or were told `auth_notify_interval` ago (or at a time so that the clock cannot represent the time when they
are to be told again). -/
theorem C28_scan_partial {w w' : World} {cmd n url : String} (hr : Reach E w) (hpc : w.notPc = .scan)
    (hs : w.step E .notifier = some w') (hc : w.ls.config.authNotifyCmd = some cmd) :
    (∃ l, w'.log = l ++ w.log ∧ (w.now, .authCmd cmd n url) ∈ l) ↔
      ∃ p, HoldsPending w.ls n p ∧ url = E.renderUrl p.url ∧
        ∀ l, p.lastNotification = some l → l + (w.ls.config.authNotifyInterval : Int) ≤ w.now ∨
          timeMax < l + (w.ls.config.authNotifyInterval : Int) := by
  have hst := (stepR_of_step hr.inv0.wf hs).2
  cases hst with
  | notCompute h => rw [hpc] at h; cases h
  | notWait h _ => rw [hpc] at h; cases h
  | notScan h hn =>
    constructor
    · rintro ⟨l, h1, h2⟩
      have h3 := List.append_cancel_right h1
      subst h3
      simp only [List.mem_reverse, List.mem_map, List.mem_flatMap, Prod.mk.injEq, true_and] at h2
      obtain ⟨o, ⟨e, he, ho⟩, rfl⟩ := h2
      obtain ⟨p, cmd', hd, _, h⟩ := authCmdFor_mem ho
      cases h
      have hd := dueEntry_some.mp hd
      exact ⟨p, ⟨e, he, rfl, hd.1⟩, rfl, notifyDue_iff.mp hd.2⟩
    · rintro ⟨p, ⟨e, he, rfl, hts⟩, rfl, hdue⟩
      refine ⟨_, rfl, ?_⟩
      simp only [List.mem_reverse, List.mem_map, List.mem_flatMap, Prod.mk.injEq, true_and]
      refine ⟨_, ⟨e, he, ?_⟩, rfl⟩
      simp [authCmdFor, dueEntry_some.mpr ⟨hts, notifyDue_iff.mpr hdue⟩, hc]

/-- **C29.** If the user is to be told of an authorisation, and the notifier looks or stops sleeping, it takes one or two
steps until they are. -/
theorem C29_told {w w1 : World} {n cmd : String} {p : PendingTok} (hr : Reach E w) (hp : HoldsPending w.ls n p)
    (hdue : ∀ l, p.lastNotification = some l → l + (w.ls.config.authNotifyInterval : Int) ≤ w.now ∨
      timeMax < l + (w.ls.config.authNotifyInterval : Int))
    (hc : w.ls.config.authNotifyCmd = some cmd) (hpc : w.notPc ≠ .compute) (hen : w.step E .notifier = some w1) :
    Reminds E n w w1 ∨ ∃ w2, w1.step E .notifier = some w2 ∧ Reminds E n w1 w2 := by
  have hst := stepR_of_step hr.inv0.wf hen
  cases hpc' : w.notPc with
  | compute => exact absurd hpc' hpc
  | scan =>
    obtain ⟨l, h1, h2⟩ := (C28_scan_partial hr hpc' hen hc).mpr ⟨p, hp, rfl, hdue⟩
    exact .inl ⟨_, _, _, l, hen, h1, h2⟩
  | wait s =>
    have hr1 := Reach.step _ hr hen
    obtain ⟨hproc, hst⟩ := hst
    cases hst with
    | notCompute h => rw [hpc'] at h; cases h
    | notScan h _ => rw [hpc'] at h; cases h
    | notWait h _ =>
      obtain ⟨w2, hs2⟩ := (C29_progress (E := E) (w := { w with notPred := false, notPc := .scan }) hproc).mpr nofun
      obtain ⟨l, h1, h2⟩ := (C28_scan_partial hr1 rfl hs2 hc).mpr ⟨p, hp, rfl, hdue⟩
      exact .inr ⟨w2, hs2, _, _, _, l, hs2, h1, h2⟩

/-- The reminder is remembered. -/
theorem reminded {w w' : World} {n : String} (hr : Reach E w) (h : Reminds E n w w') :
    (∃ p, HoldsPending w.ls n p ∧ notifyDue w.ls.config.authNotifyInterval w.now p = true) ∧
    w'.now = w.now ∧ ∃ p, HoldsPending w'.ls n p ∧ p.lastNotification = some w.now := by
  obtain ⟨a, cmd, url, l, hs, hl, hm⟩ := h
  obtain ⟨l', h1, h2⟩ := (stepR_of_step hr.inv0.wf hs).2.log_new
  have : l' = l := List.append_cancel_right (h1.symm.trans hl)
  subst this
  have hn : NewObs E w a w' (.authCmd cmd n url) := (h2 _ hm).2
  generalize ho : Obs.authCmd cmd n url = o at hn
  cases hn <;> try cases ho
  case run hth hx ho' => exfalso; cases hx <;> simp at ho'
  case auth e p hpc he hd hnr hc =>
    have hd' := dueEntry_some.mp hd
    refine ⟨⟨p, ⟨e, he, rfl, hd'.1⟩, hd'.2⟩, ?_, ?_⟩
    · have hst := (stepR_of_step hr.inv0.wf hs).2
      cases hst <;> rfl
    · obtain ⟨e', he', hn', hts', _⟩ := hnr.told e he p hd
      exact ⟨_, ⟨e', he', hn', hts'⟩, rfl⟩

theorem HoldsPending.unique {ls : LockedState} (h : ls.WF) {n : String} {p q : PendingTok} (h1 : HoldsPending ls n p)
    (h2 : HoldsPending ls n q) : p = q := by
  obtain ⟨e, he, hn, hts⟩ := h1
  obtain ⟨e', he', hn', hts'⟩ := h2
  have := h.entry_name_inj he he' (hn.trans hn'.symm)
  subst this
  rw [hts] at hts'
  cases hts'
  rfl

theorem Reach.pendingPast : ∀ w, Reach E w → ∀ n p l, HoldsPending w.ls n p → p.lastNotification = some l → l ≤ w.now := by
  apply Reach.induct
  · rintro w hi n p l ⟨e, he, _, hts⟩ hl
    rw [hi.ls] at he
    rw [(newDetails_mem _ _ e he).2.2] at hts
    cases hts
  · rintro w a w' hw h0 hproc ih hs n p l ⟨e', he', hn', hts'⟩ hl
    have hnow := hs.now
    rcases hs.pending_back hw he' hts' with he | ⟨e, he, q, rfl, hen, hts, rfl⟩ |
      ⟨inp, buf, u, e, a', url, rfl, hth, ha, hen, hrs, _, hpf, hls, _⟩
    · exact Int.le_trans (ih n p l ⟨e', he, hn', hts'⟩ hl) hnow
    · cases hl; exact hnow
    · unfold freshPending at hpf
      cases hpf
      cases hl

/-- As long as the request is the same, the time of the last reminder is remembered. -/
theorem last_reminder {w0 w : World} {n : String} {t : Instant} (hr : Reach E w0)
    (hsame : SameRequest E n w0 w) (ht : t ≤ w0.now)
    (h0 : ∃ p l, HoldsPending w0.ls n p ∧ p.lastNotification = some l ∧ t ≤ l) :
    ∃ p l, HoldsPending w.ls n p ∧ p.lastNotification = some l ∧ t ≤ l := by
  induction hsame with
  | refl => exact h0
  | @step w w' a h hs hnoref hP ih =>
    have hw := h.steps.reach hr
    obtain ⟨p, l, hp, hl, htl⟩ := ih
    obtain ⟨p', e', he', hn', hts'⟩ := hP
    refine ⟨p', ?_⟩
    rcases (stepR_of_step hw.inv0.wf hs).2.pending_back hw he' hts' with he | ⟨e, he, q, _, hen, hts, rfl⟩ |
      ⟨inp, buf, u, e, a', url, rfl, hth, ha, hen, hrs, _, hpf, hls, _⟩
    · have := hp.unique hw.inv0.wf ⟨e', he, hn', hts'⟩
      subst this
      exact ⟨l, ⟨e', he', hn', hts'⟩, hl, htl⟩
    · refine ⟨w.now, ⟨e', he', hn', hts'⟩, rfl, ?_⟩
      exact Int.le_trans ht (h.steps.now hr)
    · exfalso
      obtain ⟨ep, hep, hnp, htsp⟩ := hp
      have := hw.inv0.wf.entry_name_inj hep ha.1 (hnp.trans (hen.trans hn').symm)
      subst this
      rcases hrs with ⟨_, h⟩ | ⟨h, _⟩
      · rw [h] at htsp; cases htsp
      · obtain ⟨t', hreq⟩ := hw.unix_request (b := buf) (by rw [hth]; simp)
        have := hnoref t' buf u inp hreq (by rw [h, hnp]) rfl
        rw [hls] at this
        have := congrArg LockedState.accountCount this
        simp [put] at this

/-- **C28.** Two reminders of the same authorisation are at least `auth_notify_interval` apart, unless the clock cannot
represent the time when that interval will be over. -/
theorem C28_partial {w0 w1 w w' : World} {n : String} (hr : Reach E w0) (h1 : Reminds E n w0 w1)
    (hsame : SameRequest E n w1 w) (h2 : Reminds E n w w') :
    w0.now + (w.ls.config.authNotifyInterval : Int) ≤ w.now ∨
      timeMax < w.now + (w.ls.config.authNotifyInterval : Int) := by
  obtain ⟨_, hnow, p0, hp0, hl0⟩ := reminded hr h1
  have hr1 : Reach E w1 := by
    obtain ⟨a, _, _, _, hs, _⟩ := h1
    exact .step a hr hs
  have hw := hsame.steps.reach hr1
  obtain ⟨p, l, hp, hl, hle⟩ := last_reminder hr1 hsame (t := w0.now) (by omega) ⟨p0, _, hp0, hl0, Int.le_refl _⟩
  obtain ⟨⟨q, hq, hdue⟩, _⟩ := reminded hw h2
  have := hp.unique hw.inv0.wf hq
  subst this
  rcases notifyDue_iff.mp hdue l hl with h | h
  · left; omega
  · right
    have := (Reach.pendingPast w hw n p l hp hl)
    omega

/-! ## Examples, and a history which shows why C28 does not hold in full -/

open Demo

/-- The user asks for a token, is told to authorise, and reminded 16 minutes later. -/
def sTold : List Action := sAsk ++ [.notifier, .notifier]
def sLater : List Action := [.tick (secs 960), .notifier]

theorem reminds_of {w : World} {n : String} (l : Log) {c u : String} (h : (w.step env .notifier).map World.log =
    some (l ++ w.log)) (hm : (w.now, .authCmd c n u) ∈ l) : Reminds env n w (andThen w [.notifier]) := by
  cases hs : w.step env .notifier with
  | none => rw [hs] at h; cases h
  | some w' =>
    rw [hs] at h
    have hw : andThen w [.notifier] = w' := by simp [andThen, World.run, hs]
    exact ⟨.notifier, c, u, l, hw ▸ hs, by rw [hw]; exact Option.some.inj h, hm⟩

/-- The URL for the authorisation in the examples. -/
def askUrl : String := ((after sAsk).ls.details.filterMap fun e =>
  match e.ts with
  | .pending p => some (env.renderUrl p.url)
  | _ => none).headD ""

/-- C28, C30: the first reminder. -/
example : Reminds env "a" (after sTold) (andThen (after sTold) [.notifier]) :=
  reminds_of [(0, .authCmd "notify" "a" askUrl)] (c := "notify") (u := askUrl) (by decide +kernel) (by decide +kernel)

/-- Account "a" has an outstanding authorisation. -/
def awaitsA (w : World) : Bool := w.ls.details.any fun e => e.name == "a" && e.ts matches .pending _

theorem awaitsA_holds {w : World} (h : awaitsA w = true) : ∃ p, HoldsPending w.ls "a" p := by
  obtain ⟨e, he, h⟩ := List.any_eq_true.mp h
  simp only [Bool.and_eq_true, beq_iff_eq] at h
  cases hts : e.ts with
  | pending p => exact ⟨p, e, he, h.1, hts⟩
  | empty => rw [hts] at h; simp at h
  | active t => rw [hts] at h; simp at h

theorem sameRequest_of {w : World} {l : List Action}
    (h : duringB awaitsA (fun _ a _ => !(a matches .run 0 _)) w l = true) : SameRequest env "a" w (andThen w l) :=
  during_run (fun _ => awaitsA_holds) (by rintro w a w' hq _ _ _ _ _ _ rfl; cases hq) l h

/-- C28: it is the same authorisation 16 minutes later. -/
example : SameRequest env "a" (andThen (after sTold) [.notifier]) (andThen (andThen (after sTold) [.notifier]) (.notifier :: sLater)) :=
  sameRequest_of (by decide +kernel)

/-- C28: then the user is reminded; not after only 14 minutes. -/
example : Reminds env "a" (andThen (andThen (after sTold) [.notifier]) (.notifier :: sLater))
    (andThen (andThen (andThen (after sTold) [.notifier]) (.notifier :: sLater)) [.notifier]) :=
  reminds_of [(960000000000, .authCmd "notify" "a" askUrl)] (c := "notify") (u := askUrl) (by decide +kernel) (by decide +kernel)

example : (after (sTold ++ [.notifier, .notifier, .tick (secs 840), .notifier])).notPc = .scan ∧
    ((after (sTold ++ [.notifier, .notifier, .tick (secs 840), .notifier])).step env .notifier).map World.log =
      some (after (sTold ++ [.notifier, .notifier, .tick (secs 840), .notifier])).log := by
  decide +kernel

/-- An interval which pizauth accepts (about 585 milliards of years). -/
def confBig : Config := { conf with authNotifyInterval := secs 18446744073709551615 }

example : (timeStrToDuration "18446744073709551615s").toOption = some confBig.authNotifyInterval := by decide +kernel

/-- With it, account "a" needs an authorisation, of which the user is told; then somebody asks for account "b b". -/
def sBig : List Action :=
  [.connect (Cmd.wire .reload), .run 0 { conf := .ok confBig }] ++ n0 5 ++ sAsk ++ [.notifier, .notifier]
def sBig2 : List Action := [.notifier, .connect (Cmd.wire (.show "b b" true))] ++ n0 4 ++ [.notifier]

/-- **C28 does not hold in full.** With such an interval, the user is reminded whenever the notifier looks: here, twice
at the same time. -/
theorem C28_not : ∃ w0 w1 w w', Reach env w0 ∧ Reminds env "a" w0 w1 ∧ SameRequest env "a" w1 w ∧ Reminds env "a" w w' ∧
    w.now = w0.now ∧ 0 < w.ls.config.authNotifyInterval := by
  refine ⟨_, _, _, _, after_reach sBig, reminds_of [(0, .authCmd "notify" "a" askUrl)] (c := "notify") (u := askUrl) (by decide +kernel) (by decide +kernel),
    during_run (p := awaitsA) (q := fun w a _ => !(a matches .run 0 _) || (lastRequest w.log).any fun r =>
        !(parseReq r.2 matches .refresh _ _)) (fun _ => awaitsA_holds) ?_ sBig2 (by decide +kernel),
    reminds_of [(0, .authCmd "notify" "b b" askUrl), (0, .authCmd "notify" "a" askUrl)] (c := "notify")
      (u := askUrl) (by decide +kernel) (by decide +kernel), by decide +kernel, by decide +kernel⟩
  rintro w a w' hq t buf u inp h1 h2 rfl
  rw [h1] at hq
  simp [h2] at hq

end Pizauth

import Verif.Proof.EventCause
import Verif.Props.Demo

/-!
# C31, C32, C33, C57: token events
-/

namespace Pizauth
open LockedState

variable {E : Env}

/-! ## C31: order -/

/-- **C31.** The queued events are those dealt with, followed by those which are not, and the events for which the
command was run are among the former, in the same order, each at most once. -/
theorem C31_order : ∀ {w : World}, Reach E w →
    ∃ done, queuedEvents w.log = done ++ openEvents w ∧ (executedEvents w.log).Sublist done := by
  intro w hr
  refine Reach.induct (P := fun w => ∃ done, queuedEvents w.log = done ++ openEvents w ∧
    (executedEvents w.log).Sublist done) ?_ ?_ w hr
  · intro w hi
    exact ⟨[], by simp [hi.log, queuedEvents, openEvents, hi.evPc, hi.evQueue, eventInHand],
      by simp [hi.log, executedEvents]⟩
  · rintro w a w' _ _ _ ⟨done, h1, h2⟩ hs
    obtain ⟨q, d, x, g1, g2, g3, g4, _⟩ := hs.events
    refine ⟨done ++ d, ?_, ?_⟩
    · rw [g1, h1, List.append_assoc, g3, List.append_assoc]
    · rw [g2]; exact h2.append g4

/-- **C31.** The command is never started while it is running, and it is the configured one, run for the event which is
first in line. -/
theorem C31_one_at_a_time {w w' : World} {a : Action} {t : Instant} {c n : String} {e : TokenEvent} (hr : Reach E w)
    (hs : w.step E a = some w') (hl : w'.log = (t, .eventCmd c n e) :: w.log) :
    eventCmdRunning w.log = false ∧ w.ls.config.tokenEventCmd = some c ∧
      ∃ r, openEvents w = (n, e) :: r ∧ openEvents w' = r := by
  have hrun := Reach.eventRunning w hr
  have hst := (stepR_of_step hr.inv0.wf hs).2
  obtain ⟨l, h1, h2⟩ := hst.log_new
  have hl' : l = [(t, .eventCmd c n e)] := by
    rw [h1] at hl
    exact List.append_cancel_right (bs := w.log) (by rw [hl]; rfl)
  have hn := (h2 (t, .eventCmd c n e) (by rw [hl']; simp)).2
  cases hn with
  | run ht hx ho => exact absurd rfl ((hx.no_eventCmd _ ho).1 c n e)
  | evCmd hpc hcmd =>
    refine ⟨?_, hcmd, ?_⟩
    · cases hb : eventCmdRunning w.log with
      | false => rfl
      | true => rw [hrun.mp hb] at hpc; cases hpc
    · refine ⟨w.evQueue, by simp [openEvents, hpc, eventInHand], ?_⟩
      cases hst with
      | evCmd _ _ => simp [openEvents, eventInHand]
      | evWait h _ => rw [hpc] at h; cases h
      | evEmpty h _ => rw [hpc] at h; cases h
      | evPop h _ => rw [hpc] at h; cases h
      | evNoCmd _ hno => rw [hcmd] at hno; cases hno
      | evEnd h => rw [hpc] at h; cases h

/-! ## C32: events are not stranded -/

/-- **C32.** As long as there is a `token_event_cmd`, no event becomes stranded. -/
theorem C32_partial {w0 w : World} (hr : Reach E w0) (hset : EventCmdSet E w0 w) (h0 : NotStranded w0) :
    NotStranded w := by
  induction hset with
  | refl => exact h0
  | @step w w' a h hs _ _ ih =>
    have hw := h.steps.reach hr
    exact ih.step hw (stepR_of_step hw.inv0.wf hs).2 h.last

/-- **C32.** And the command is run for every event, in order. -/
theorem C32_all_partial {w0 w : World} (hr : Reach E w0) (hset : EventCmdSet E w0 w) :
    ∃ q x, queuedEvents w.log = queuedEvents w0.log ++ q ∧ executedEvents w.log = executedEvents w0.log ++ x ∧
      openEvents w0 ++ q = x ++ openEvents w := by
  induction hset with
  | refl => exact ⟨[], [], by simp, by simp, by simp⟩
  | @step w w' a h hs _ _ ih =>
    have hw := h.steps.reach hr
    obtain ⟨q, x, h1, h2, h3⟩ := ih
    obtain ⟨q', d', x', g1, g2, g3, _, g5⟩ := (stepR_of_step hw.inv0.wf hs).2.events
    have := g5 h.last
    subst this
    refine ⟨q ++ q', x ++ x', by rw [g1, h1, List.append_assoc], by rw [g2, h2, List.append_assoc], ?_⟩
    rw [← List.append_assoc, h3, List.append_assoc, g3, List.append_assoc]

/-- The event thread at work. -/
theorem drain {c : String} : ∀ (q : List (String × TokenEvent)) {w : World}, w.proc = .running → w.evPc = .drain →
    w.ls.config.tokenEventCmd = some c → w.evQueue = q →
    ∃ k w', w.run E (List.replicate k .eventer) = some w' ∧ openEvents w' = [] ∧
      executedEvents w'.log = executedEvents w.log ++ q
  | [], w, hp, hpc, hc, hq => ⟨0, w, rfl, by simp [openEvents, hpc, eventInHand, hq], by simp⟩
  | (n, e) :: r, w, hp, hpc, hc, hq => by
    have h1 : w.step E .eventer = some { w with evQueue := r, evPc := .readCmd n e } := by
      simp [World.step, hp, World.stepEventer, hpc, hq]
    have h2 : ({ w with evQueue := r, evPc := .readCmd n e } : World).step E .eventer =
        some { w with evQueue := r, evPc := .running, log := (w.now, .eventCmd c n e) :: w.log } := by
      simp [World.step, hp, World.stepEventer, hc, World.observe]
    have h3 : ({ w with evQueue := r, evPc := .running, log := (w.now, .eventCmd c n e) :: w.log } : World).step E .eventer =
        some { w with
          evQueue := r, evPc := .drain, log := (w.now, .eventCmdEnd) :: (w.now, .eventCmd c n e) :: w.log } := by
      simp [World.step, hp, World.stepEventer, World.observe]
    obtain ⟨k, w', g1, g2, g3⟩ := drain r (w := { w with
      evQueue := r, evPc := .drain, log := (w.now, .eventCmdEnd) :: (w.now, .eventCmd c n e) :: w.log }) hp rfl hc rfl
    refine ⟨k + 3, w', ?_, g2, ?_⟩
    · simp only [List.replicate_succ, World.run, h1, h2, h3]
      exact g1
    · rw [g3]; simp [executedEvents]

/-- **C32.** Once it is woken or at work, and if there is a command, the event thread runs it for every open event, in
order. -/
theorem C32_executed_partial {w : World} {c : String} (hp : w.proc = .running)
    (hc : w.ls.config.tokenEventCmd = some c) (hw : w.evPc ≠ .wait ∨ w.evPred = true) :
    ∃ k w', w.run E (List.replicate k .eventer) = some w' ∧ openEvents w' = [] ∧
      executedEvents w'.log = executedEvents w.log ++ openEvents w := by
  cases hpc : w.evPc with
  | wait =>
    have hpred : w.evPred = true := hw.resolve_left (fun h => h hpc)
    have h1 : w.step E .eventer = some { w with evPred := false, evPc := .drain } := by
      simp [World.step, hp, World.stepEventer, hpc, hpred]
    obtain ⟨k, w', g1, g2, g3⟩ := drain (E := E) w.evQueue (w := { w with evPred := false, evPc := .drain }) hp rfl hc rfl
    refine ⟨k + 1, w', ?_, g2, ?_⟩
    · simp only [List.replicate_succ, World.run, h1]; exact g1
    · rw [g3]; simp [openEvents, hpc, eventInHand]
  | drain =>
    obtain ⟨k, w', g1, g2, g3⟩ := drain (E := E) w.evQueue hp hpc hc rfl
    exact ⟨k, w', g1, g2, by rw [g3]; simp [openEvents, hpc, eventInHand]⟩
  | readCmd n e =>
    have h1 : w.step E .eventer = some { w with evPc := .running, log := (w.now, .eventCmd c n e) :: w.log } := by
      simp [World.step, hp, World.stepEventer, hpc, hc, World.observe]
    have h2 : ({ w with evPc := .running, log := (w.now, .eventCmd c n e) :: w.log } : World).step E .eventer =
        some { w with evPc := .drain, log := (w.now, .eventCmdEnd) :: (w.now, .eventCmd c n e) :: w.log } := by
      simp [World.step, hp, World.stepEventer, World.observe]
    obtain ⟨k, w', g1, g2, g3⟩ := drain (E := E) w.evQueue (w := { w with
      evPc := .drain, log := (w.now, .eventCmdEnd) :: (w.now, .eventCmd c n e) :: w.log }) hp rfl hc rfl
    refine ⟨k + 2, w', ?_, g2, ?_⟩
    · simp only [List.replicate_succ, World.run, h1, h2]; exact g1
    · rw [g3]; simp [openEvents, hpc, eventInHand, executedEvents]
  | running =>
    have h1 : w.step E .eventer = some { w with evPc := .drain, log := (w.now, .eventCmdEnd) :: w.log } := by
      simp [World.step, hp, World.stepEventer, hpc, World.observe]
    obtain ⟨k, w', g1, g2, g3⟩ := drain (E := E) w.evQueue (w := { w with
      evPc := .drain, log := (w.now, .eventCmdEnd) :: w.log }) hp rfl hc rfl
    refine ⟨k + 1, w', ?_, g2, ?_⟩
    · simp only [List.replicate_succ, World.run, h1]; exact g1
    · rw [g3]; simp [openEvents, hpc, eventInHand, executedEvents]

/-! ## C33, C57: events are accurate -/

/-- **C33.** A `token_invalidated` event for account `n` is queued only after the same thread, refreshing a token of
`n`, removed it; or after its `transient_error_if_cmd` failed and it found that its handle on the account was lost. -/
theorem C33_cause_partial {w : World} {i : Nat} {n : String} {t : Instant} (hr : Reach E w)
    (hm : (t, .event i n .invalidated) ∈ w.log) :
    DidStep E i w fun w1 w2 =>
      (RefreshingAccount w1 i n ∧ TokenRemoved n w1 w2) ∨
      (HandleLost w1 i ∧ w2.ls = w1.ls ∧ (∃ cmd, .transientCmd i cmd n ∈ threadLog i w1.log) ∧
        .transientCmdEnd i false ∈ threadLog i w1.log) :=
  Reach.eventCause w hr i n .invalidated (.inr ⟨t, hm⟩)

/-- **C33.** A token is lost only by a revocation (which queues `token_revoked`), by a reload, by a refresh (which queues
`token_invalidated`) or because it is to be refreshed and there is no refresh token (then no event is queued). -/
theorem C33_lost_partial {w w' : World} {a : Action} {n : String} {t : ActiveTok} (hr : Reach E w)
    (hs : w.step E a = some w') (ht : HoldsToken w.ls n t) (hl : ∀ t', ¬ HoldsToken w'.ls n t') :
    (∃ inp buf tq, a = .run 0 inp ∧ lastRequest w.log = some (tq, buf) ∧ parseReq buf = .revoke n ∧
      .pushEvent n .revoked ∈ w'.threads 0 ∧ HoldsNothing w'.ls n) ∨
    (∃ inp c, a = .run 0 inp ∧ w'.log = (w.now, .reloaded c) :: w.log) ∨
    (∃ i inp, a = .run i inp ∧ RefreshingAccount w i n ∧ .pushEvent n .invalidated ∈ w'.threads i ∧
      HoldsNothing w'.ls n) ∨
    (∃ i inp, a = .run i inp ∧ StartedFor w i n ∧ t.refreshToken = none ∧ w'.threads i = [] ∧ w'.log = w.log ∧
      HoldsNothing w'.ls n) := by
  have h0 := hr.inv0
  have same : w'.ls = w.ls → False := fun h => hl t (h ▸ ht)
  replace hs := (stepR_of_step h0.wf hs).2
  cases hs <;> try exact (same rfl).elim
  case notScan ls' hp hn =>
    obtain ⟨e, he, hen, hts⟩ := ht
    refine (hl t ⟨e, hn.keep e he (fun _ => ?_), hen, hts⟩).elim
    simp [dueEntry, hts]
  case run tid inp op rest f hth hx =>
    have hmem : op ∈ w.threads tid := by rw [hth]; simp
    have hself := apply_threads_self (h0.lt_of_mem hth) rest f
    rcases hx.lost h0.wf (Reach.opsInv w hr tid op hmem) ht hl with
      ⟨buf, rfl, h1, h2, h3⟩ | ⟨c, rfl⟩ | ⟨e, he, hn, h1, h2, h3⟩ | ⟨e, he, hn, rfl, h1, h2, h3, h4, h5⟩
    · obtain ⟨rfl, _⟩ := (Reach.shape w hr).unix hmem
      obtain ⟨tq, hreq⟩ := hr.unix_request hmem
      exact .inl ⟨inp, buf, tq, rfl, hreq, h1, by rw [hself]; exact List.mem_append_left _ h2, h3⟩
    · obtain ⟨rfl, _⟩ := (Reach.shape w hr).install hmem
      refine .inr (.inl ⟨inp, c, rfl, ?_⟩)
      cases hx
      rfl
    · refine .inr (.inr (.inl ⟨tid, inp, rfl, ⟨e, he, hn, op, hmem, h1⟩, ?_, h3⟩))
      rw [hself]; exact List.mem_append_left _ h2
    · have hone : w.threads tid = [.rfStart e.id] := by
        obtain ⟨_, h | ⟨_, _, h, _⟩⟩ := (Reach.shape w hr).core rfl hmem
        · exact h
        · cases h
      rw [hone] at hth
      cases hth
      refine .inr (.inr (.inr ⟨tid, inp, rfl, ⟨e, he, hn, hone⟩, h1, ?_, ?_, h5⟩))
      · rw [hself, h3]; rfl
      · simp [World.apply, h4]

/-- **C57.** The other events are queued only after the same thread did what they say. -/
theorem C57_cause {w : World} {i : Nat} {n : String} {t : Instant} {e : TokenEvent} (hr : Reach E w)
    (hm : (t, .event i n e) ∈ w.log) : EventCause E w i n e := Reach.eventCause w hr i n e (.inr ⟨t, hm⟩)

/-- **C57.** Whenever an account gets a token, it is a restored one for an account without, or the result of a code
exchange (and `token_new` will be queued), or of a refresh (and `token_refreshed` will be queued). -/
theorem C57_gained {w w' : World} {a : Action} {n : String} {t : ActiveTok} (hr : Reach E w)
    (hs : w.step E a = some w') (ht : HoldsToken w'.ls n t) (hl : ∀ t', HoldsToken w.ls n t' → t'.info ≠ t.info) :
    ∃ i inp, a = .run i inp ∧
      ((∃ p, HoldsPending w.ls n p) ∧ .pushEvent n .new ∈ w'.threads i ∨
       (∃ t', HoldsToken w.ls n t') ∧ .pushEvent n .refresh ∈ w'.threads i ∨
       (∀ t', ¬ HoldsToken w.ls n t') ∧ ∃ plain, w'.log = (w.now, .restored plain) :: w.log) := by
  have h0 := hr.inv0
  have same : w'.ls = w.ls → False := fun h => hl t (h ▸ ht) rfl
  replace hs := (stepR_of_step h0.wf hs).2
  cases hs <;> try exact (same rfl).elim
  case notScan ls' hp hn =>
    obtain ⟨e, he, hen, hts⟩ := ht
    rcases hn.back e he with ⟨h, _⟩ | ⟨_, _, p, _, _, hts', _⟩
    · exact (hl t ⟨e, h, hen, hts⟩ rfl).elim
    · rw [hts] at hts'; cases hts'
  case run tid inp op rest f hth hx =>
    have hmem : op ∈ w.threads tid := by rw [hth]; simp
    have hself := apply_threads_self (h0.lt_of_mem hth) rest f
    refine ⟨tid, inp, rfl, ?_⟩
    rcases hx.gained h0.wf (Reach.opsInv w hr tid op hmem) (fun c hc => h0.inst tid c (hc ▸ hmem)) ht with
      ⟨t', h1, h2⟩ | ⟨h1, h2⟩ | ⟨h1, h2⟩ | ⟨h1, p, h2⟩
    · exact (hl t' h1 h2).elim
    · exact .inl ⟨h1, by rw [hself]; exact List.mem_append_left _ h2⟩
    · exact .inr (.inl ⟨h1, by rw [hself]; exact List.mem_append_left _ h2⟩)
    · exact .inr (.inr ⟨h1, p, by simp [World.apply, h2]⟩)

/-! ## Examples, and histories which show why C32 and C33 do not hold in full -/

open Demo

def evs (k : Nat) : List Action := List.replicate k .eventer
def revokeB : Bytes := Cmd.wire (.revoke "b b")
def confNoEv : Config := { conf with tokenEventCmd := none }
def reload (c : Config) : List Action := [.connect (Cmd.wire .reload), .run 0 { conf := .ok c }] ++ n0 5

/-- A token is obtained and revoked. -/
def sEvents : List Action := sToken ++ [.connect revokeA] ++ n0 5

/-- C31: two events, of which one has been executed. -/
example : (w0.run env (sEvents ++ evs 4)).isSome = true ∧
    queuedEvents (after (sEvents ++ evs 4)).log = [("a", .new), ("a", .revoked)] ∧
    executedEvents (after (sEvents ++ evs 4)).log = [("a", .new)] ∧
    openEvents (after (sEvents ++ evs 4)) = [("a", .revoked)] := by
  decide +kernel

/-- C31: the command is started for the second one. -/
example : ∃ w', (after (sEvents ++ evs 5)).step env .eventer = some w' ∧
    w'.log = (0, .eventCmd "ev" "a" .revoked) :: (after (sEvents ++ evs 5)).log := by
  refine ⟨_, andThen_one (by decide +kernel), by decide +kernel⟩

/-- C32: an event waits and the event thread was woken. -/
example : (after sEvents).evQueue = [("a", .new), ("a", .revoked)] ∧ (after sEvents).evPc = .wait ∧
    (after sEvents).evPred = true ∧ (after sEvents).ls.config.tokenEventCmd = some "ev" := by
  decide +kernel

example : NotStranded w0 := fun h => absurd rfl h

/-- C32: there was a command all the time. -/
example : EventCmdSet env w0 (after sEvents) :=
  during_of (p := fun w => w.ls.config.tokenEventCmd.isSome) (q := fun _ _ _ => true) (fun _ h => h)
    (fun _ _ _ _ => trivial) (by decide +kernel)

/-- Two events are queued while there is no `token_event_cmd`; the event thread drops the first one and goes to sleep;
then the command is configured again. -/
def sStranded : List Action :=
  reload confNoEv ++ [.connect revokeA] ++ n0 5 ++ [.connect revokeB] ++ n0 5 ++ evs 3 ++ reload conf

/-- **C32 does not hold in full.** An event waits although there is a `token_event_cmd`, the event thread sleeps, and
nobody is about to wake it; nothing else is going on. -/
theorem C32_not : ∃ w, Reach env w ∧ w.proc = .running ∧ w.ls.config.tokenEventCmd = some "ev" ∧
    w.evQueue = [("b b", .revoked)] ∧ (∀ i, w.threads i = []) ∧ ¬ NotStranded w := by
  have hth : ∀ i, (after sStranded).threads i = [] := by
    intro i
    cases hth : (after sStranded).threads i with
    | nil => rfl
    | cons op r =>
      have hlt := (after_reach sStranded).inv0.lt_of_mem hth
      have h1 : (after sStranded).nextTid = 1 := by decide +kernel
      rw [h1] at hlt
      obtain rfl : i = 0 := by omega
      have h2 : ((after sStranded).threads 0).isEmpty = true := by decide +kernel
      rw [hth] at h2
      cases h2
  refine ⟨_, after_reach sStranded, by decide +kernel, by decide +kernel, by decide +kernel, hth, fun h => ?_⟩
  rcases h (by decide +kernel) with h | h | ⟨i, h⟩
  · exact h (by decide +kernel)
  · have h1 : (after sStranded).evPred = false := by decide +kernel
    rw [h1] at h
    cases h
  · rw [hth] at h
    cases h

/-- `pizauth refresh a`, thread `i` cannot reach the token server. -/
def fails (i : Nat) : List Action :=
  [.connect refreshA] ++ n0 3 ++ [.run i {}, .run i {}, .run i { net := .transport .dns }, .run i {}, .run i {}]

/-- This happens six times; thread 7 runs `transient_error_if_cmd`; then the user revokes the token; then the command
fails. -/
def sInvalid : List Action :=
  sToken ++ fails 2 ++ fails 3 ++ fails 4 ++ fails 5 ++ fails 6 ++ fails 7 ++ [.connect revokeA] ++ n0 5 ++
    [.run 7 { cmdOk := false }, .run 7 {}, .run 7 {}]

/-- Account "a" has a token. -/
def hasA (w : World) : Bool := w.ls.details.any fun e => e.name == "a" && e.ts matches .active _

theorem hasA_of {w : World} {t : ActiveTok} (h : HoldsToken w.ls "a" t) : hasA w = true := by
  obtain ⟨e, he, hn, hts⟩ := h
  exact List.any_eq_true.mpr ⟨e, he, by simp [hn, hts]⟩

/-- Thread `i` takes no token away from account "a". -/
def noLoss (i : Nat) : World → List Action → Bool
  | _, [] => true
  | w, a :: l =>
    match w.step env a with
    | none => false
    | some w' => (!(hasA w && !hasA w' && (match a with
        | .run j _ => i == j
        | _ => false))) && noLoss i w' l

theorem noLoss_spec {i : Nat} : ∀ {l : List Action} {w w2 : World}, noLoss i w l = true →
    ∀ {l1 l2 inp w1}, l = l1 ++ .run i inp :: l2 → w.run env l1 = some w1 → w1.step env (.run i inp) = some w2 →
    hasA w1 = true → hasA w2 = true
  | [], w, w2, h, l1, l2, inp, w1, hl, _, _, _ => by simp at hl
  | a :: l, w, w2, h, [], l2, inp, w1, hl, hr, hs, ha => by
    obtain ⟨rfl, rfl⟩ := List.cons.inj hl
    cases hr
    simp only [noLoss, hs, ha] at h
    cases hb : hasA w2 with
    | true => rfl
    | false => simp [hb] at h
  | a :: l, w, w2, h, b :: l1, l2, inp, w1, hl, hr, hs, ha => by
    obtain ⟨rfl, rfl⟩ := List.cons.inj hl
    simp only [noLoss] at h
    simp only [World.run] at hr
    cases hst : w.step env a with
    | none => rw [hst] at hr; cases hr
    | some w' =>
      rw [hst] at h hr
      exact noLoss_spec (l := l1 ++ .run i inp :: l2) (Bool.and_eq_true _ _ ▸ h).2 rfl hr hs ha

/-- **C33 does not hold in full.** A thread queues a `token_invalidated` event although it did not remove any token. -/
theorem C33_not : ∃ l w, w0.run env l = some w ∧ (0, .event 7 "a" .invalidated) ∈ w.log ∧
    ∀ l1 inp l2 w1 w2, l = l1 ++ .run 7 inp :: l2 → w0.run env l1 = some w1 → w1.step env (.run 7 inp) = some w2 →
      ¬ TokenRemoved "a" w1 w2 := by
  refine ⟨sInvalid, after sInvalid, ?_, ?_, ?_⟩
  · unfold after
    cases h : w0.run env sInvalid with
    | some w => rfl
    | none =>
      have : (w0.run env sInvalid).isSome = true := by decide +kernel
      rw [h] at this; cases this
  · have : (after sInvalid).log.head? = some (0, .event 7 "a" .invalidated) := by decide +kernel
    exact List.mem_of_mem_head? this
  · rintro l1 inp l2 w1 w2 hl hr hs ⟨⟨t, ht⟩, e0, he0, hn0, hts0⟩
    have h := noLoss_spec (i := 7) (by decide +kernel) hl hr hs (hasA_of ht)
    obtain ⟨e, he, h⟩ := List.any_eq_true.mp h
    simp only [Bool.and_eq_true, beq_iff_eq] at h
    have hw2 : Reach env w2 := .step _ (run_reach l1 (.init w0_init) hr) hs
    have := hw2.inv0.wf.entry_name_inj he he0 (h.1.trans hn0.symm)
    rw [this, hts0] at h
    simp at h

/-- The token server grants a token without a refresh token. -/
def answerNoRt : Body :=
  .obj [("token_type", .str "Bearer"), ("access_token", .str "T1"), ("expires_in", .u64 3600)]

def sNoRt : List Action :=
  sAsk ++ [.http callback false] ++ n1 3 ++ [.run 1 { net := .body answerNoRt }] ++ n1 4 ++ [.connect refreshA] ++ n0 3

/-- **C33 does not hold in full.** A refresh removes a token which can not be refreshed, and no event is queued: the
thread is finished. -/
theorem C33_silent_not : ∃ w w', Reach env w ∧ w.step env (.run 2 {}) = some w' ∧ hasA w = true ∧ hasA w' = false ∧
    (w'.threads 2).isEmpty = true ∧ w'.log = w.log :=
  ⟨_, _, after_reach sNoRt, andThen_one (by decide +kernel), by decide +kernel, by decide +kernel, by decide +kernel,
    by decide +kernel⟩

/-- C33: a refresh which is refused removes the token and queues the event. -/
example : hasA (after (sRefresh ++ [.run 2 {}, .run 2 { net := .status 400 "" }])) = true ∧
    hasA (after (sRefresh ++ [.run 2 {}, .run 2 { net := .status 400 "" }, .run 2 {}])) = false ∧
    queuedEvents (after (sRefresh ++ [.run 2 {}, .run 2 { net := .status 400 "" }, .run 2 {}, .run 2 {}])).log =
      [("a", .new), ("a", .invalidated)] := by
  decide +kernel

/-- C57: the other events. -/
example : (w0.run env (sRefreshed ++ [.connect revokeA] ++ n0 2)).isSome = true ∧
    queuedEvents (after (sRefreshed ++ [.connect revokeA] ++ n0 2)).log =
      [("a", .new), ("a", .refresh), ("a", .revoked)] := by
  decide +kernel

end Pizauth

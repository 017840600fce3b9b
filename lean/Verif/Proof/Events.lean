import Verif.Spec.Events
import Verif.Proof.Schedule
import Verif.Proof.Obs
import Verif.Proof.Trace

/-!
# Token events
-/

namespace Pizauth
open LockedState

variable {E : Env}

theorem queuedEvents_skip : ∀ {l : Log}, (∀ p ∈ l, ∀ i n e, p.2 ≠ .event i n e) → ∀ L, queuedEvents (l ++ L) = queuedEvents L
  | [], _, _ => rfl
  | p :: l, h, L => by
    have ih := queuedEvents_skip (fun q hq => h q (List.mem_cons_of_mem _ hq)) L
    obtain ⟨t, o⟩ := p
    have h0 := h (t, o) (by simp)
    cases o
    case event => exact absurd rfl (h0 _ _ _)
    all_goals exact ih

theorem executedEvents_skip : ∀ {l : Log}, (∀ p ∈ l, ∀ c n e, p.2 ≠ .eventCmd c n e) →
    ∀ L, executedEvents (l ++ L) = executedEvents L
  | [], _, _ => rfl
  | p :: l, h, L => by
    have ih := executedEvents_skip (fun q hq => h q (List.mem_cons_of_mem _ hq)) L
    obtain ⟨t, o⟩ := p
    have h0 := h (t, o) (by simp)
    cases o
    case eventCmd => exact absurd rfl (h0 _ _ _)
    all_goals exact ih

theorem eventCmdRunning_skip : ∀ {l : Log}, (∀ p ∈ l, (∀ c n e, p.2 ≠ .eventCmd c n e) ∧ p.2 ≠ .eventCmdEnd) →
    ∀ L, eventCmdRunning (l ++ L) = eventCmdRunning L
  | [], _, _ => rfl
  | p :: l, h, L => by
    have ih := eventCmdRunning_skip (fun q hq => h q (List.mem_cons_of_mem _ hq)) L
    obtain ⟨t, o⟩ := p
    have h0 := h (t, o) (by simp)
    cases o
    case eventCmd => exact absurd rfl (h0.1 _ _ _)
    case eventCmdEnd => exact absurd rfl h0.2
    all_goals exact ih

section
variable {S : Static} {now : Instant} {wall : SysTime} {ls : LockedState} {tid : Nat}
  {op : Op} {inp : Input} {f : Eff}

theorem ExecR.queued (hx : ExecR E S now wall ls tid op inp f) (L : Log) :
    queuedEvents ((f.obs.map fun o => (now, o)).reverse ++ L) = queuedEvents L ++ f.push := by
  cases hx <;> simp [queuedEvents]

theorem ExecR.no_eventCmd (hx : ExecR E S now wall ls tid op inp f) :
    ∀ o ∈ f.obs, (∀ c n e, o ≠ .eventCmd c n e) ∧ o ≠ .eventCmdEnd := by
  cases hx <;> simp

/-- What is queued is what an operation says; and after it, the event thread is woken. -/
theorem ExecR.push (hx : ExecR E S now wall ls tid op inp f) (h : f.push ≠ []) : ∃ n e, op = .pushEvent n e := by
  cases hx <;> first | exact absurd rfl h | exact ⟨_, _, rfl⟩

theorem ExecR.wakes (hx : ExecR E S now wall ls tid op inp f) (h : op = .wakeEventer) : f.wakeEv = true := by
  subst h; cases hx; rfl

end

theorem run_log_mem {f : Eff} {now : Instant} {p : Instant × Obs} (h : p ∈ (f.obs.map fun o => (now, o)).reverse) :
    p.2 ∈ f.obs := by
  simp only [List.mem_reverse, List.mem_map] at h
  obtain ⟨o, ho, rfl⟩ := h
  exact ho

theorem authCmds_mem {w : World} {p : Instant × Obs}
    (h : p ∈ ((w.ls.details.flatMap (authCmdFor E w.ls.config w.now)).map fun o => (w.now, o)).reverse) :
    ∃ c n u, p.2 = .authCmd c n u := by
  simp only [List.mem_reverse, List.mem_map, List.mem_flatMap] at h
  obtain ⟨o, ⟨e, he, ho⟩, rfl⟩ := h
  obtain ⟨p, cmd, _, _, h⟩ := authCmdFor_mem ho
  exact ⟨_, _, _, h⟩

/-- What a step does to the events: `q` are new, `d` are dealt with, `x` of them by running the command. -/
theorem StepR.events {w w' : World} {a : Action} (hs : StepR E w a w') :
    ∃ q d x, queuedEvents w'.log = queuedEvents w.log ++ q ∧ executedEvents w'.log = executedEvents w.log ++ x ∧
      openEvents w ++ q = d ++ openEvents w' ∧ x.Sublist d ∧
      (w.ls.config.tokenEventCmd.isSome = true → x = d) := by
  have nop : queuedEvents w'.log = queuedEvents w.log → executedEvents w'.log = executedEvents w.log →
      openEvents w' = openEvents w →
      ∃ q d x, queuedEvents w'.log = queuedEvents w.log ++ q ∧ executedEvents w'.log = executedEvents w.log ++ x ∧
        openEvents w ++ q = d ++ openEvents w' ∧ x.Sublist d ∧ (w.ls.config.tokenEventCmd.isSome = true → x = d) := by
    intro h1 h2 h3
    exact ⟨[], [], [], by simp [h1], by simp [h2], by simp [h3], by simp, by simp⟩
  cases hs
  case run tid inp op rest f ht hx =>
    refine ⟨f.push, [], [], hx.queued w.log, ?_, ?_, by simp, by simp⟩
    · rw [List.append_nil]
      exact executedEvents_skip (fun p hp => (hx.no_eventCmd _ (run_log_mem hp)).1) _
    · simp [openEvents, World.apply]
  case notScan ls' hp hn =>
    refine nop (queuedEvents_skip (fun p hp => ?_) _) (executedEvents_skip (fun p hp => ?_) _) rfl
    · obtain ⟨_, _, _, h⟩ := authCmds_mem hp; rw [h]; exact nofun
    · obtain ⟨_, _, _, h⟩ := authCmds_mem hp; rw [h]; exact nofun
  case evWait h1 h2 => exact nop rfl rfl (by simp [openEvents, h1, eventInHand])
  case evEmpty h1 h2 => exact nop rfl rfl (by simp [openEvents, h1, eventInHand])
  case evPop h1 h2 => exact nop rfl rfl (by simp [openEvents, h1, eventInHand, h2])
  case evNoCmd act e h1 h2 =>
    exact ⟨[], [(act, e)], [], by simp, by simp, by simp [openEvents, h1, eventInHand], by simp, by simp [h2]⟩
  case evCmd act e cmd h1 h2 =>
    exact ⟨[], [(act, e)], [(act, e)], by simp [queuedEvents], rfl, by simp [openEvents, h1, eventInHand], by simp,
      by simp⟩
  case evEnd h1 => exact nop rfl rfl (by simp [openEvents, h1, eventInHand])
  all_goals exact nop rfl rfl rfl

/-- The command is running exactly while the event thread waits for it. -/
theorem Reach.eventRunning : ∀ w, Reach E w → (eventCmdRunning w.log = true ↔ w.evPc = .running) := by
  apply Reach.induct
  · intro w hi
    rw [hi.log, hi.evPc]; simp [eventCmdRunning]
  · intro w a w' hw h0 _ ih hs
    cases hs
    case run tid inp op rest f ht hx =>
      show eventCmdRunning (_ ++ w.log) = true ↔ w.evPc = .running
      rw [eventCmdRunning_skip (fun p hp => hx.no_eventCmd _ (run_log_mem hp))]
      exact ih
    case notScan ls' hp hn =>
      show eventCmdRunning (_ ++ w.log) = true ↔ w.evPc = .running
      rw [eventCmdRunning_skip (fun p hp => by
        obtain ⟨_, _, _, h⟩ := authCmds_mem hp; rw [h]; exact ⟨nofun, nofun⟩)]
      exact ih
    case evCmd => simp [eventCmdRunning]
    case evEnd => simp [eventCmdRunning]
    case evWait h1 h2 => rw [h1] at ih; simpa using ih
    case evEmpty h1 h2 => rw [h1] at ih; simpa using ih
    case evPop h1 h2 => rw [h1] at ih; simpa using ih
    case evNoCmd h1 h2 => rw [h1] at ih; simpa using ih
    all_goals exact ih

theorem EventerWoken.step {w w' : World} {a : Action} (h0 : Inv0 E w) (hs : StepR E w a w') (h : EventerWoken w) :
    EventerWoken w' ∨ w'.evPc = .drain := by
  cases hs <;> try exact .inl h
  case connect buf hb =>
    refine .inl (h.imp id ?_)
    rintro ⟨i, hi⟩
    refine ⟨i, ?_⟩
    by_cases h : i = 0
    · subst h; rw [hb] at hi; cases hi
    · simpa [setThread, h] using hi
  case http buf sec hb =>
    refine .inl (h.imp id ?_)
    rintro ⟨i, hi⟩
    have := h0.lt_of_mem' hi
    refine ⟨i, ?_⟩
    simpa [setThread, Nat.ne_of_lt this] using hi
  case run tid inp op rest f ht hx =>
    rcases h with h | h
    · exact .inl (.inl (by simp [World.apply, h]))
    · rcases mem_run (f := f) h0 ht h with rfl | h
      · exact .inl (.inl (by simp [World.apply, hx.wakes rfl]))
      · exact .inl (.inr h)
  case refScan es hp he =>
    refine .inl (h.imp id ?_)
    rintro ⟨i, hi⟩
    refine ⟨i, ?_⟩
    dsimp only
    rw [spawnAll_lt _ _ _ _ (h0.lt_of_mem' hi)]
    exact hi
  case evWait => exact .inr rfl

/-- After an event is queued, the thread which queued it wakes the event thread. -/
def WakeAfter : List Op → Prop
  | [] => True
  | .pushEvent _ _ :: l => .wakeEventer ∈ l ∧ WakeAfter l
  | _ :: l => WakeAfter l

theorem WakeAfter.append : ∀ {l r : List Op}, WakeAfter l → WakeAfter r → WakeAfter (l ++ r)
  | [], _, _, h => h
  | o :: l, r, h, h' => by
    cases o <;> simp only [WakeAfter, List.cons_append] at h ⊢
    case pushEvent => exact ⟨List.mem_append_left _ h.1, WakeAfter.append h.2 h'⟩
    all_goals exact WakeAfter.append h h'

theorem WakeAfter.cons {o : Op} {l : List Op} (h : WakeAfter (o :: l)) : WakeAfter l := by
  cases o <;> first | exact h | exact h.2

theorem ExecR.wakeAfter {S : Static} {now : Instant} {wall : SysTime} {ls : LockedState} {tid : Nat} {op : Op}
    {inp : Input} {f : Eff} (hx : ExecR E S now wall ls tid op inp f) :
    WakeAfter f.next ∧ ∀ o ∈ f.spawn, WakeAfter [o] := by
  cases hx <;> try (simp [WakeAfter]; done)
  case failOk => dsimp only; split <;> simp [WakeAfter]

theorem Reach.wakeAfter : ∀ w, Reach E w → ∀ i, WakeAfter (w.threads i) := by
  apply Reach.induct
  · intro w hi i; rw [hi.threads]; trivial
  · intro w a w' hw h0 _ ih hs
    cases hs <;> try exact ih
    case connect buf hb =>
      intro i
      by_cases h : i = 0
      · subst h; simp [setThread, WakeAfter]
      · simpa [setThread, h] using ih i
    case http buf sec hb =>
      intro i
      by_cases h : i = w.nextTid
      · subst h; simp [setThread, WakeAfter]
      · simpa [setThread, h] using ih i
    case run tid inp op rest f ht hx =>
      intro i
      have hrest : WakeAfter rest := (ht ▸ ih tid : WakeAfter (op :: rest)).cons
      by_cases h : i = tid
      · subst h
        rw [apply_threads_self (h0.lt_of_mem ht)]
        exact hx.wakeAfter.1.append hrest
      · rcases spawnAll_cases (setThread w.threads tid (f.next ++ rest)) w.nextTid i f.spawn with
          ⟨_, h1⟩ | ⟨_, o, ho, h1⟩ | ⟨_, h1⟩
        · show WakeAfter (spawnAll _ _ _ i); rw [h1, setThread_ne _ h]; exact ih i
        · show WakeAfter (spawnAll _ _ _ i); rw [h1]; exact hx.wakeAfter.2 o ho
        · show WakeAfter (spawnAll _ _ _ i); rw [h1, setThread_ne _ h]; exact ih i
    case refScan es hp he =>
      intro i
      rcases spawnAll_cases w.threads w.nextTid i (es.map fun e => .rfStart e.id) with
        ⟨_, h1⟩ | ⟨_, op, hop, h1⟩ | ⟨_, h1⟩
      · show WakeAfter (spawnAll _ _ _ i); rw [h1]; exact ih i
      · show WakeAfter (spawnAll _ _ _ i); rw [h1]
        obtain ⟨e, _, rfl⟩ := List.mem_map.mp hop
        trivial
      · show WakeAfter (spawnAll _ _ _ i); rw [h1]; exact ih i

/-- Events are stranded only by the event thread's not finding a command. -/
theorem NotStranded.step {w w' : World} {a : Action} (hr : Reach E w) (hs : StepR E w a w') (h : NotStranded w)
    (hset : w.ls.config.tokenEventCmd.isSome = true) : NotStranded w' := by
  have h0 := hr.inv0
  have keep : w'.evQueue = w.evQueue → w'.evPc = w.evPc → NotStranded w' := by
    intro h1 h2 hq
    rw [h1] at hq
    rw [h2]
    rcases h hq with h | h
    · exact .inl h
    · rcases h.step h0 hs with h | h
      · exact .inr h
      · rw [h2] at h; exact .inl (by rw [h]; exact nofun)
  cases hs <;> try exact keep rfl rfl
  case run tid inp op rest f ht hx =>
    by_cases hp : f.push = []
    · exact keep (by simp [World.apply, hp]) rfl
    · obtain ⟨n, e, rfl⟩ := hx.push hp
      intro _
      refine .inr (.inr (mem_next h0 ht (List.mem_append_right _ ?_)))
      have := Reach.wakeAfter w hr tid
      rw [ht] at this
      exact this.1
  case evWait => intro _; exact .inl nofun
  case evEmpty h1 h2 => intro hq; exact absurd h2 hq
  case evPop => intro _; exact .inl nofun
  case evNoCmd h1 h2 => rw [h2] at hset; cases hset
  case evCmd => intro _; exact .inl nofun
  case evEnd => intro _; exact .inl nofun

end Pizauth

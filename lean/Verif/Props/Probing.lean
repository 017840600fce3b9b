import Verif.Proof.Probing
import Verif.Props.Deadline
import Verif.Props.Events
import Verif.Props.RefreshResult

/-!
# C128: threads and their `transient_error_if_cmd`
-/

namespace Pizauth

variable {E : Env} {shell : Commands.Shell}

private theorem launch_some {cmd act : String} {fails : Bool} {p : Commands.Process}
    (h : Probe.launch shell cmd act fails = some p) : ∃ sh, shell = some sh ∧
      p = ⟨sh, ["-c", cmd], [("PIZAUTH_ACCOUNT", act)], true⟩ := by
  unfold Probe.launch at h
  split at h
  · cases h
  · rename_i sh
    split at h
    · cases h
    · rename_i p' hp
      split at h
      · cases h
      · cases h
        unfold Commands.start at hp
        split at hp
        · cases hp
        · cases hp; exact ⟨sh, rfl, rfl⟩

/-- **C128.** The commands which a thread has run are those with which it is done, in this order, and perhaps one for which
it waits. The process is the documented one, it was not killed unless it had run for three minutes, and it is taken for
successful exactly if it has ended with exit code 0. -/
theorem C128 {s : Probing} (h : Probing.Reach E shell s) :
    Reach E s.world ∧
    (∀ i, probeCommands i s.world.log =
      (s.ended.filter (·.1 == i)).map (·.2.1.about) ++ (s.probes i).toList.map Probe.about) ∧
    verdicts s.world.log = s.ended.map (fun p => (p.2.2.1, p.1, decide (p.2.2.2 = .exited (some 0)))) ∧
    (∀ i, (s.probes i).isSome = true ↔ ∃ id act, s.world.threads i = [.rfCmdWait id act]) ∧
    (∀ i c p, (s.probes i = some c ∨ ∃ t how, (i, c, t, how) ∈ s.ended) → c.proc = some p →
      ∃ sh, shell = some sh ∧ p = ⟨sh, ["-c", c.cmd], [("PIZAUTH_ACCOUNT", c.act)], true⟩) ∧
    ∀ i c t how, (i, c, t, how) ∈ s.ended → c.since ≤ t ∧ (how = .killed → c.since + 180000000000 ≤ t) ∧
      (∀ code, how = .exited code → c.exit = some code) ∧ (how = .notStarted ↔ c.proc = none) := by
  refine ⟨h.inv.reach, h.inv.cmds, ?_, fun i => ?_, ?_, ?_⟩
  · rw [h.inv.verdicts]
    congr 1
    funext p
    obtain ⟨i, c, t, how⟩ := p
    cases how with
    | exited code => simp only [ProbeEnd.ok, ProbeEnd.exited.injEq, Prod.mk.injEq, true_and]; rw [Bool.eq_iff_iff]; simp
    | _ => simp [ProbeEnd.ok]
  · rw [h.inv.pc i]
    refine ⟨fun hw => (hw.alone h.inv.reach).2.2, ?_⟩
    rintro ⟨id, act, ht⟩
    exact ⟨id, act, by rw [ht]; simp⟩
  · rintro i c p (hc | ⟨t, how, hc⟩) hp
    · obtain ⟨fails, hl⟩ := h.inv.proc i c hc
      exact launch_some (hl.symm.trans hp)
    · obtain ⟨fails, hl⟩ := (h.inv.seen i c t how hc).proc
      exact launch_some (hl.symm.trans hp)
  · intro i c t how hc
    have := h.inv.seen i c t how hc
    exact ⟨this.since, this.killed, this.exited, this.notStarted⟩

/-- **C128.** If there is no process, or it has ended, or it has run for three minutes, then the thread can go on. -/
theorem C128_over {s : Probing} {i : Nat} {c : Probe} (h : Probing.Reach E shell s) (hp : s.world.proc = .running)
    (hc : s.probes i = some c) (ho : c.over s.world.now) :
    ∃ a s', (a = .reap i ∨ a = .kill i) ∧ s.step E shell a = some s' ∧ s'.probes i = none := by
  have hw := (h.inv.pc i).mp (by simp [hc])
  have hcl : ∀ how, ∃ s', s.close E i c how = some s' ∧ s'.probes i = none := by
    intro how
    obtain ⟨w, h1⟩ := step_verdict_some h.inv.reach hp hw { cmdOk := how.ok }
    unfold Probing.close
    rw [h1]
    exact ⟨_, rfl, Probing.set_self _ _ _⟩
  cases hpr : c.proc with
  | none =>
    obtain ⟨s', h1, h2⟩ := hcl .notStarted
    exact ⟨.reap i, s', .inl rfl, by simp only [Probing.step, hc, hpr]; exact h1, h2⟩
  | some p =>
    cases hx : c.exit with
    | some code =>
      obtain ⟨s', h1, h2⟩ := hcl (.exited code)
      exact ⟨.reap i, s', .inl rfl, by simp only [Probing.step, hc, hpr, hx]; exact h1, h2⟩
    | none =>
      have ht : c.since + 180000000000 ≤ s.world.now := by
        rcases ho with ho | ho | ho
        · rw [hpr] at ho; cases ho
        · exact absurd hx ho
        · exact ho
      obtain ⟨s', h1, h2⟩ := hcl .killed
      refine ⟨.kill i, s', .inr rfl, ?_, h2⟩
      simp only [Probing.step, hc, hpr]
      rw [if_pos (show c.since + (probeLimit : Int) ≤ s.world.now from ht)]
      exact h1

/-- **C128.** No thread waits for the command of another one. -/
theorem C128_other {s : Probing} {a : Action} {w : World}
    (ha : ∀ i inp, a = .run i inp → (∀ id act, s.world.threads i ≠ [.rfCmdWait id act]) ∧
      ∀ id act cmd, s.world.threads i ≠ [.rfCmd id act cmd])
    (h : Probing.Reach E shell s) (hs : s.world.step E a = some w) :
    s.step E shell (.world a) = some { s with world := w } := by
  have : Probing.busy s.world a = false := by
    cases hb : Probing.busy s.world a with
    | false => rfl
    | true =>
      exfalso
      unfold Probing.busy at hb
      split at hb
      · rename_i i inp
        obtain ⟨h1, h2⟩ := ha i inp rfl
        split at hb
        · rename_i id act cmd rest ht
          exact h2 id act cmd ((Reach.shape _ h.inv.reach).refreshing (i := i) (o := .rfCmd id act cmd) (h := id)
            (by rw [ht]; simp) rfl).2
        · rename_i id act rest ht
          exact h1 id act ((Reach.shape _ h.inv.reach).refreshing (i := i) (o := .rfCmdWait id act) (h := id)
            (by rw [ht]; simp) rfl).2
        · cases hb
      · cases hb
  simp [Probing.step, this, hs]

/-- **C128.** If threads get their turns within `δ`, and token servers answer (or requests to them time out) within `T`, then
no account is marked as being refreshed for longer than `T + 3 min + 9·δ`, whatever the commands do (with C115). -/
theorem C128_time {r : Probing.Run E shell} {δ T : Nat} (h : r.Turns δ T) (hf : r.toRun.Prompt δ) (k : Nat) (n : String) :
    ∃ m, k ≤ m ∧ r.now m ≤ r.now k + (T : Int) + 180000000000 + 9 * (δ : Int) ∧ ¬ Marked (r.state m).world.ls n := by
  obtain ⟨m, h1, h2, h3⟩ := C115 (h.timely r hf) k n
  refine ⟨m, h1, ?_, h3⟩
  have h2 : r.now m ≤ r.now k + (T : Int) + ((180000000000 + 2 * δ : Nat) : Int) + 7 * (δ : Int) := h2
  omega

/-- **C128.** While the commands run, everything can happen which can happen without them, in particular either result. -/
theorem C128_total {s : Probing} {a : Action} {w : World} (h : Probing.Reach E shell s)
    (hc : ∀ i c, s.probes i = some c → c.proc ≠ none ∧ c.exit = none) (hs : s.world.step E a = some w) :
    ∃ l s', s.run E shell l = some s' ∧ s'.world = w := by
  have hr := h.inv.reach
  have hp := (stepR_of_step hr.inv0.wf hs).1
  cases hb : Probing.busy s.world a with
  | false => exact ⟨[.world a], { s with world := w }, by simp [Probing.run, Probing.step, hb, hs], rfl⟩
  | true =>
    unfold Probing.busy at hb
    split at hb
    · rename_i i inp
      split at hb
      · rename_i id act cmd rest ht
        have h1 := ((Reach.shape _ hr).refreshing (i := i) (o := .rfCmd id act cmd) (by simp [ht]) (h := id) rfl).2
        have hs' : s.world.step E (.run i {}) = some w := by
          simp only [World.step, hp, h1, exec] at hs ⊢
          exact hs
        exact ⟨[.start i false], _, by simp only [Probing.run, Probing.step, ht, hs', Option.map_some]; rfl, rfl⟩
      · rename_i id act rest ht
        have hw : Waiting s.world i := ⟨id, act, by simp [ht]⟩
        obtain ⟨_, _, id', act', h1⟩ := hw.alone hr
        have hsome := (h.inv.pc i).mpr hw
        obtain ⟨c, hci⟩ := Option.isSome_iff_exists.mp hsome
        obtain ⟨hpr, hex⟩ := hc i c hci
        obtain ⟨p, hpr⟩ := Option.ne_none_iff_exists'.mp hpr
        have hs' : s.world.step E (.run i { cmdOk := inp.cmdOk }) = some w := by
          simp only [World.step, hp, h1, exec] at hs ⊢
          exact hs
        cases hok : inp.cmdOk with
        | true =>
          rw [hok] at hs'
          exact ⟨[.exit i (some 0), .reap i], _, by
            simp only [Probing.run, Probing.step, hci, hpr, hex, Probing.set_self, Probing.close]
            rw [show (ProbeEnd.exited (some 0)).ok = true from rfl, hs']
            rfl, rfl⟩
        | false =>
          rw [hok] at hs'
          exact ⟨[.waitError i], _, by
            simp only [Probing.run, Probing.step, hci, hpr, Probing.close]
            rw [show ProbeEnd.unwaitable.ok = false from rfl, hs']
            rfl, rfl⟩
      · cases hb
    · cases hb

private theorem mem_probeCommands {i : Nat} {t : Instant} {c n : String} : ∀ {L : Log}, (t, c, n) ∈ probeCommands i L →
    .transientCmd i c n ∈ threadLog i L
  | [], h => by cases h
  | p :: L, h => by
    have hc : threadLog i (p :: L) = threadLog i [p] ++ threadLog i L := threadLog_append i [p] L
    rw [hc]
    unfold probeCommands at h
    split at h
    · cases ‹_ :: _ = ([] : Log)›
    · rename_i t' j c' n' L' heq
      cases heq
      by_cases hj : j = i
      · rw [if_pos hj] at h
        rcases List.mem_append.mp h with h | h
        · exact List.mem_append.mpr (.inr (mem_probeCommands h))
        · simp only [List.mem_singleton, Prod.mk.injEq] at h
          obtain ⟨_, rfl, rfl⟩ := h
          refine List.mem_append.mpr (.inl ?_)
          subst hj
          simp [threadLog, Obs.thread]
      · rw [if_neg hj] at h
        exact List.mem_append.mpr (.inr (mem_probeCommands h))
    · rename_i heq
      cases heq
      exact List.mem_append.mpr (.inr (mem_probeCommands h))

private theorem mem_verdicts {i : Nat} {t : Instant} {ok : Bool} : ∀ {L : Log}, (t, i, ok) ∈ verdicts L →
    .transientCmdEnd i ok ∈ threadLog i L
  | [], h => by cases h
  | p :: L, h => by
    have hc : threadLog i (p :: L) = threadLog i [p] ++ threadLog i L := threadLog_append i [p] L
    rw [hc]
    unfold verdicts at h
    split at h
    · cases ‹_ :: _ = ([] : Log)›
    · rename_i t' j ok' L' heq
      cases heq
      rcases List.mem_append.mp h with h | h
      · exact List.mem_append.mpr (.inr (mem_verdicts h))
      · simp only [List.mem_singleton, Prod.mk.injEq] at h
        obtain ⟨_, rfl, rfl⟩ := h
        exact List.mem_append.mpr (.inl (by simp [threadLog, Obs.thread]))
    · rename_i heq
      cases heq
      exact List.mem_append.mpr (.inr (mem_verdicts h))

/-- **C128.** When a refresh with a command is over, then (unless the account was changed meanwhile) it has kept the token if
the command ended with exit code 0. In all other cases (another exit code, the time limit, no process) it has removed it, and
`token_invalidated` was queued. -/
theorem C128_token {s : Probing} {i : Nat} {c : Probe} {t : Instant} {how : ProbeEnd} (h : Probing.Reach E shell s)
    (hi : i ≠ 0) (hd : s.world.threads i = [])
    (he : (i, c, t, how) ∈ s.ended) :
    (how = .exited (some 0) ∧ DidStep E i s.world (fun w1 w2 => HandleLost w1 i ∧ w2.ls = w1.ls ∨
        RefreshingAccount w1 i c.act ∧ ∃ t, HoldsToken w1.ls c.act t ∧ HoldsToken w2.ls c.act { t with ongoing := false }) ∧
      ∀ n e, .event i n e ∉ threadLog i s.world.log) ∨
    (how ≠ .exited (some 0) ∧ DidStep E i s.world (fun w1 w2 => HandleLost w1 i ∧ w2.ls = w1.ls ∨
        RefreshingAccount w1 i c.act ∧ HoldsNothing w2.ls c.act) ∧
      .event i c.act .invalidated ∈ threadLog i s.world.log) := by
  obtain ⟨hr, hcmds, hver, _⟩ := C128 h
  have h1 : .transientCmd i c.cmd c.act ∈ threadLog i s.world.log := by
    refine mem_probeCommands (t := c.since) ?_
    rw [hcmds i]
    refine List.mem_append.mpr (.inl (List.mem_map.mpr ⟨(i, c, t, how), ?_, rfl⟩))
    simp [he]
  obtain ⟨u, a, r, net, hm, ht⟩ := hr.cmd_after hi hd h1
  have h2 : .transientCmdEnd i (decide (how = .exited (some 0))) ∈ threadLog i s.world.log := by
    refine mem_verdicts (t := t) ?_
    rw [hver]
    exact List.mem_map.mpr ⟨_, he, rfl⟩
  rcases C17_transient hr hi hd hm ht with ⟨_, hl⟩ | ⟨n, _, hl⟩ | ⟨n, cmd, _, ⟨hs, hl⟩ | ⟨hs, hl⟩⟩
  · rw [hl] at h1; simp at h1
  · rw [hl] at h1; simp at h1
  · rw [hl] at h1 h2
    simp at h1 h2
    obtain ⟨rfl, rfl⟩ := h1
    exact .inl ⟨h2, hs, by rw [hl]; simp⟩
  · rw [hl] at h1 h2
    simp at h1 h2
    obtain ⟨rfl, rfl⟩ := h1
    exact .inr ⟨h2, hs, by rw [hl]; simp⟩

/-! ## These are not empty promises -/

namespace Probing.Run

/-- Nothing happens any more. -/
def still {s : Probing} (h : Probing.Reach E shell s) : Probing.Run E shell where
  state _ := s
  act _ := none
  start := h
  next _ := rfl

/-- One step more at the beginning. -/
def cons (r : Probing.Run E shell) {s : Probing} {a : Probing.Act} (h : Probing.Reach E shell s)
    (hs : s.step E shell a = some (r.state 0)) : Probing.Run E shell where
  state
    | 0 => s
    | n + 1 => r.state n
  act
    | 0 => some a
    | n + 1 => r.act n
  start := h
  next
    | 0 => hs
    | n + 1 => r.next n

theorem still_turns {s : Probing} {δ T : Nat} (h : Probing.Reach E shell s) (h1 : ∀ i, s.probes i = none)
    (h2 : ∀ i op rest, s.world.threads i = op :: rest → op.waits = false) : (still h).Turns δ T where
  time _ i hn := absurd (h1 i) hn
  over n i hn := by
    obtain ⟨c, hc, _⟩ := hn n (Nat.le_refl _) (by omega)
    rw [show ((still h).state n).probes i = none from h1 i] at hc
    cases hc
  servers n i op rest ht hw := by
    rw [h2 i op rest ht] at hw
    cases hw

theorem Turns.cons {r : Probing.Run E shell} {δ T : Nat} (hf : r.Turns δ T) {s : Probing} {a : Probing.Act}
    (h : Probing.Reach E shell s) (hs : s.step E shell a = some (r.state 0))
    (hnow : (r.state 0).world.now = s.world.now ∨
      (s.world.now ≤ (r.state 0).world.now ∧ (∀ i op rest, s.world.threads i = op :: rest → op.probes = true) ∧
        ∀ i c, s.probes i = some c → ¬ c.over s.world.now)) : (r.cons h hs).Turns δ T where
  time
    | 0, i, hn => by
      by_cases hc : (r.state 0).probes i = none
      · exact ⟨1, by omega, .inr hc⟩
      · obtain ⟨m, _, hm⟩ := hf.time 0 i hc
        refine ⟨m + 1, by omega, hm.imp (fun hm => ?_) id⟩
        show s.world.now + 180000000000 ≤ (r.state m).world.now
        have hm : (r.state 0).world.now + 180000000000 ≤ (r.state m).world.now := hm
        rcases hnow with hnow | hnow
        · omega
        · have := hnow.1
          omega
    | n + 1, i, hn => by
      obtain ⟨m, h1, h2⟩ := hf.time n i hn
      exact ⟨m + 1, by omega, h2⟩
  over
    | 0, i, hn => by
      rcases hnow with hnow | ⟨_, _, hnow⟩
      · obtain ⟨m, hm, hb, h'⟩ := hf.over 0 i fun m hm hb => hn (m + 1) (by omega) (by
          show (r.state m).world.now ≤ s.world.now + (δ : Int)
          rw [← hnow]; exact hb)
        refine ⟨m + 1, by omega, ?_, h'⟩
        show (r.state m).world.now ≤ s.world.now + (δ : Int)
        rw [← hnow]; exact hb
      · obtain ⟨c, hc, ho⟩ := hn 0 (Nat.le_refl _) (by omega)
        exact absurd ho (hnow i c hc)
    | n + 1, i, hn => by
      obtain ⟨m, hm, hb, h'⟩ := hf.over n i fun m hm hb => hn (m + 1) (by omega) hb
      exact ⟨m + 1, by omega, hb, h'⟩
  servers
    | 0, i, op, rest, ht, hw, hp => by
      rcases hnow with hnow | ⟨_, hnow, _⟩
      · by_cases ha : ((r.cons h hs).act 0).bind Probing.Act.thread = some i
        · exact ⟨0, Nat.le_refl _, by omega, ha⟩
        · have hb := (r.cons h hs).toRun.busy (n := 0) (i := i) (by
            show s.world.threads i ≠ []
            rw [show s.world.threads i = op :: rest from ht]; simp) fun inp hc =>
              ha ((r.cons h hs).thread_action.mpr ⟨inp, hc⟩)
          have hb : (r.state 0).world.threads i = s.world.threads i := hb
          obtain ⟨m, h1, h2, h3⟩ := hf.servers 0 i op rest (hb.trans ht) hw hp
          refine ⟨m + 1, by omega, ?_, h3⟩
          show (r.state m).world.now ≤ s.world.now + (op.patience δ T 0 s.world.now : Int)
          rw [← hnow]; exact h2
      · rw [hnow i op rest ht] at hp; cases hp
    | n + 1, i, op, rest, ht, hw, hp => by
      obtain ⟨m, hm, hb, h'⟩ := hf.servers n i op rest ht hw hp
      exact ⟨m + 1, by omega, hb, h'⟩

end Probing.Run

namespace Probing

/-- Is the command over? -/
def overB (c : Probe) (now : Instant) : Bool :=
  c.proc.isNone || c.exit.isSome || decide (c.since + 180000000000 ≤ now)

theorem overB_of {c : Probe} {now : Instant} (h : overB c now = false) : ¬ c.over now := by
  unfold overB at h
  simp only [Bool.or_eq_false_iff, decide_eq_false_iff_not] at h
  obtain ⟨⟨h1, h2⟩, h3⟩ := h
  rintro (ho | ho | ho)
  · rw [ho] at h1; cases h1
  · exact ho (by simpa using h2)
  · exact h3 ho

/-- Threads only wait for commands, none of which is over. -/
def waitingB (s : Probing) : Bool :=
  (List.range s.world.nextTid).all fun i => (s.world.threads i).head?.all Op.probes &&
    (s.probes i).all fun c => !overB c s.world.now

theorem waitingB_of {s : Probing} (hr : Reach E shell s) (h : s.waitingB = true) :
    (∀ i op rest, s.world.threads i = op :: rest → op.probes = true) ∧
    ∀ i c, s.probes i = some c → ¬ c.over s.world.now := by
  simp only [waitingB, List.all_eq_true, List.mem_range, Bool.and_eq_true] at h
  refine ⟨fun i op rest ht => ?_, fun i c hc => ?_⟩
  · have := (h i (hr.inv.reach.inv0.lt_of_mem ht)).1
    rw [ht] at this
    simpa using this
  · have hw := (hr.inv.pc i).mp (by simp [hc])
    have := (h i (hw.alone hr.inv.reach).2.1).2
    rw [hc] at this
    exact overB_of (by simpa using this)

/-- Nobody waits for anything. -/
def quietB (s : Probing) : Bool :=
  (List.range s.world.nextTid).all fun i => (s.world.threads i).isEmpty

theorem quietB_of {s : Probing} (hr : Reach E shell s) (h : s.quietB = true) :
    (∀ i, s.probes i = none) ∧ ∀ i op rest, s.world.threads i = op :: rest → op.waits = false := by
  simp only [quietB, List.all_eq_true, List.mem_range] at h
  refine ⟨fun i => ?_, fun i op rest ht => ?_⟩
  · cases hc : s.probes i with
    | none => rfl
    | some c =>
      obtain ⟨_, hlt, id, act, ht⟩ := ((hr.inv.pc i).mp (by simp [hc])).alone hr.inv.reach
      have := h i hlt
      rw [ht] at this
      cases this
  · have := h i (hr.inv.reach.inv0.lt_of_mem ht)
    rw [ht] at this
    cases this

/-- A finite execution in which the clock moves only when nobody can do anything, at whose end nobody can. -/
def eagerB (E : Env) (shell : Commands.Shell) (δ : Nat) : Probing → List Act → Bool
  | s, [] => decide (s.world.proc = .running) && idleB E s.world && s.quietB
  | s, a :: l =>
    match s.step E shell a with
    | some s' => (s.does a).isSome &&
        (s'.world.now == s.world.now || (decide (s.world.now ≤ s'.world.now) && decide (s'.world.now ≤ s.world.now + (δ : Int)) &&
          idleB E s.world && s.waitingB)) &&
        eagerB E shell δ s' l
    | none => false

theorem Run.turns_of {δ T : Nat} : ∀ (l : List Act) {s : Probing}, Reach E shell s → eagerB E shell δ s l = true →
    ∃ r : Run E shell, r.Turns δ T ∧ r.toRun.Prompt δ ∧ r.state 0 = s
  | [], s, hr, h => by
    simp only [eagerB, Bool.and_eq_true, decide_eq_true_eq] at h
    obtain ⟨⟨h1, h2⟩, h3⟩ := h
    obtain ⟨h4, h5⟩ := quietB_of hr h3
    refine ⟨Run.still hr, Run.still_turns hr h4 h5, ?_, rfl⟩
    exact Pizauth.Run.still_prompt hr.inv.reach h1 (idle_of hr.inv.reach h2)
  | a :: l, s, hr, h => by
    unfold eagerB at h
    cases hs : s.step E shell a with
    | none => rw [hs] at h; cases h
    | some s1 =>
      rw [hs] at h
      simp only [Bool.and_eq_true, Bool.or_eq_true, beq_iff_eq, decide_eq_true_eq] at h
      obtain ⟨⟨hd, hn⟩, hl⟩ := h
      obtain ⟨r, h1, h2, h0⟩ := Run.turns_of (T := T) l (.step a hr hs) hl
      have hs' : s.step E shell a = some (r.state 0) := by rw [h0]; exact hs
      obtain ⟨x, hx, hw⟩ : ∃ x, s.does a = some x ∧ s.world.step E x = some (r.toRun.world 0) := by
        rcases step_world hs' with h | ⟨h, _⟩
        · exact h
        · rw [h] at hd; cases hd
      refine ⟨r.cons hr hs', ?_, ?_, rfl⟩
      · refine h1.cons hr hs' ?_
        rw [h0]
        exact hn.imp id fun ⟨⟨⟨h1, h2⟩, h3⟩, h4⟩ => ⟨h1, waitingB_of hr h4⟩
      · have hp := h2.cons (w := s.world) (a := x) hr.inv.reach hw (by
          rw [show r.toRun.world 0 = s1.world by show (r.state 0).world = _; rw [h0]]
          exact hn.imp id fun ⟨⟨⟨h1, h2⟩, h3⟩, h4⟩ => ⟨h2, idle_of hr.inv.reach h3⟩)
        have he : (r.cons hr hs').toRun = r.toRun.cons hr.inv.reach hw := by
          unfold Run.toRun Pizauth.Run.cons
          congr 1
          · funext n; cases n <;> rfl
          · funext n
            cases n with
            | zero => exact hx
            | succ n => rfl
        rw [he]; exact hp

end Probing

section
open Demo
open Probing (Act)

/-- The state after these steps. -/
def prState (l : List Act) : Probing :=
  ((Probing.run env (some "/bin/sh") { world := w0 } l).getD { world := w0 })

theorem prState_reach (l : List Act) : Probing.Reach env (some "/bin/sh") (prState l) := by
  have : ∀ (l : List Act) {s : Probing}, Probing.Reach env (some "/bin/sh") s → ∀ s', Probing.run env (some "/bin/sh") s l = some s' →
      Probing.Reach env (some "/bin/sh") s' := by
    intro l
    induction l with
    | nil => intro s h s' hs; cases hs; exact h
    | cons a l ih =>
      intro s h s' hs
      simp only [Probing.run] at hs
      split at hs
      · cases hs
      · rename_i s1 h1; exact ih (.step a h h1) s' hs
  unfold prState
  cases hs : Probing.run env (some "/bin/sh") { world := w0 } l with
  | none => exact .init w0_init
  | some s' => exact this l (.init w0_init) s' hs

/-- Six refreshes fail; thread 7 starts the command. -/
def prProbe (fails7 : Bool) : List Act :=
  (sToken ++ fails 2 ++ fails 3 ++ fails 4 ++ fails 5 ++ fails 6 ++ (fails 7).dropLast).map .world ++ [.start 7 fails7]

def minute : Nat := 60000000000

/-- C128: what is run, and what becomes of it. -/
example : ((prState (prProbe false)).probes 7).map (fun c => (c.about, c.proc)) =
      some ((0, "nc -z host 80", "a"), some ⟨"/bin/sh", ["-c", "nc -z host 80"], [("PIZAUTH_ACCOUNT", "a")], true⟩) ∧
    ((prState (prProbe true)).probes 7).map (·.proc) = some none ∧
    verdicts (prState (prProbe true ++ [.reap 7])).world.log = [(0, 7, false)] ∧
    verdicts (prState (prProbe false ++ [.exit 7 (some 0), .reap 7])).world.log = [(0, 7, true)] ∧
    verdicts (prState (prProbe false ++ [.exit 7 (some 1), .reap 7])).world.log = [(0, 7, false)] ∧
    verdicts (prState (prProbe false ++ [.exit 7 none, .reap 7])).world.log = [(0, 7, false)] ∧
    verdicts (prState (prProbe false ++ [.waitError 7])).world.log = [(0, 7, false)] ∧
    ((prState (prProbe false ++ [.world (.tick 179999999999)])).step env (some "/bin/sh") (.kill 7)).isNone = true ∧
    verdicts (prState (prProbe false ++ [.world (.tick 180000000000), .kill 7])).world.log = [(180000000000, 7, false)] := by
  decide +kernel

/-- The token of account "a" when thread 7 has made `k` more steps, and the events. -/
def prDone (l : List Act) (k : Nat) : Option ((Bool × Bool) × List (String × String)) :=
  (Probing.run env (some "/bin/sh") (prState (prProbe false)) (l ++ List.replicate k (.world (.run 7 {})))).map fun s =>
    ((hasA s.world, (s.world.threads 7).isEmpty), (queuedEvents s.world.log).map fun e => (e.1, e.2.text))

/-- C128: what becomes of the token. -/
example :
    prDone [.exit 7 (some 0), .reap 7] 2 = some ((true, true), [("a", "token_new")]) ∧
    prDone [.exit 7 (some 1), .reap 7] 4 = some ((false, true), [("a", "token_new"), ("a", "token_invalidated")]) ∧
    prDone [.world (.tick 180000000000), .kill 7] 4 = some ((false, true), [("a", "token_new"), ("a", "token_invalidated")]) := by
  decide +kernel

/-- The command hangs. -/
def prKill : List Act := (eager env minute 11 (prState (prProbe false)).world).map .world ++ [.kill 7]

def prHang : List Act := prKill ++ (eager env minute 7 (prState (prProbe false ++ prKill)).world).map .world

/-- C128: the command hangs; after three minutes it is killed, and then the account is not marked any more. -/
example : ∃ r : Probing.Run env (some "/bin/sh"), r.Turns minute minute ∧ r.toRun.Prompt minute ∧
    Marked (r.state 0).world.ls "a" ∧ ∃ m, r.now m ≤ 780000000000 ∧ ¬ Marked (r.state m).world.ls "a" := by
  obtain ⟨r, h1, h2, h0⟩ := Probing.Run.turns_of (δ := minute) (T := minute) prHang (prState_reach (prProbe false))
    (by decide +kernel)
  have h6 : (prState (prProbe false)).world.now = 0 := by decide +kernel
  obtain ⟨m, _, hb, h⟩ := C128_time h1 h2 0 "a"
  refine ⟨r, h1, h2, ?_, m, ?_, h⟩
  · have h : (prState (prProbe false)).world.ls.details.any (fun e => e.name == "a" &&
        match e.ts with | .active t => t.ongoing | _ => false) = true := by decide +kernel
    rw [h0]
    simp only [List.any_eq_true, Bool.and_eq_true, beq_iff_eq] at h
    obtain ⟨e, he, hn, h⟩ := h
    cases hts : e.ts with
    | active t => rw [hts] at h; exact ⟨e, he, t, hn, hts, h⟩
    | empty => rw [hts] at h; cases h
    | pending p => rw [hts] at h; cases h
  · have hb : r.now m ≤ (r.state 0).world.now + (minute : Int) + 180000000000 + 9 * (minute : Int) := hb
    rw [h0, h6] at hb
    exact hb

end

end Pizauth

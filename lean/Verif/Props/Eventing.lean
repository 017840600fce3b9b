import Verif.Proof.Eventing
import Verif.Props.PromptEvents
import Verif.Props.Events

/-!
# C127: the event thread and its commands
-/

namespace Pizauth

variable {E : Env} {shell : Commands.Shell}

private theorem launch_ok {cmd act : String} {e : TokenEvent} {fails : Option String} {p : Commands.Process}
    (h : EvChild.launch shell cmd act e fails = .ok p) : ∃ sh, shell = some sh ∧
      p = ⟨sh, ["-c", cmd], [("PIZAUTH_ACCOUNT", act), ("PIZAUTH_EVENT", e.text)], false⟩ := by
  unfold EvChild.launch at h
  split at h
  · cases h
  · rename_i sh
    split at h
    · cases h
    · cases h
    · rename_i p' hp
      cases h
      unfold Commands.start at hp
      split at hp
      · cases hp
      · cases hp; exact ⟨sh, rfl, rfl⟩

private theorem launch_error {cmd act : String} {e : TokenEvent} {fails : Option String} {m : String}
    (h : EvChild.launch shell cmd act e fails = .error m) : EventFailure shell cmd (.notStarted m) m := by
  unfold EvChild.launch at h
  split at h
  · rename_i hs; cases h; exact .noShell rfl
  · rename_i sh
    split at h
    · cases h; exact .notStarted _ (by simp)
    · cases h; exact .notStarted _ (by simp)
    · cases h

/-- **C127.** The commands which were run are those with which the event thread is done, in this order, and perhaps one for
which it waits. The process is the documented one, and it was not killed unless it had run for 30 seconds. -/
theorem C127 {s : Eventing} (h : Eventing.Reach E shell s) :
    Reach E s.world ∧ eventCommands s.world.log = s.ended.map (·.1.about) ++ s.child.toList.map EvChild.about ∧
    (s.child.isSome = true ↔ s.world.evPc = .running) ∧
    (∀ c p, (s.child = some c ∨ ∃ t how, (c, t, how) ∈ s.ended) → c.proc = .ok p →
      ∃ sh, shell = some sh ∧ p = ⟨sh, ["-c", c.cmd], [("PIZAUTH_ACCOUNT", c.act), ("PIZAUTH_EVENT", c.event.text)], false⟩) ∧
    ∀ c t how, (c, t, how) ∈ s.ended → c.since ≤ t ∧ (how = .killed → c.since + 30000000000 ≤ t) ∧
      (∀ code, how = .exited code → c.exit = some code) ∧ ∀ m, how = .notStarted m ↔ c.proc = .error m := by
  refine ⟨h.inv.reach, h.inv.cmds, h.inv.pc, ?_, ?_⟩
  · rintro c p (hc | ⟨t, how, hc⟩) hp
    · obtain ⟨fails, hl⟩ := h.inv.proc c hc
      exact launch_ok (hl.symm.trans hp)
    · obtain ⟨fails, hl⟩ := (h.inv.seen c t how hc).proc
      exact launch_ok (hl.symm.trans hp)
  · intro c t how hc
    have := h.inv.seen c t how hc
    exact ⟨this.since, this.killed, this.exited, this.notStarted⟩

private theorem report_event {c : EvChild} {t : Instant} {how : EvEnd} (h : Eventing.Seen shell c t how) :
    (how.failure = false ∧ c.report how = none) ∨
    (how.failure = true ∧ ∃ x, c.report how = some ⟨.error, x⟩ ∧ EventFailure shell c.cmd how x) := by
  cases how with
  | notStarted m =>
    refine .inr ⟨rfl, m, rfl, ?_⟩
    obtain ⟨fails, hl⟩ := h.proc
    exact launch_error (hl.symm.trans ((h.notStarted m).mp rfl))
  | killed => exact .inr ⟨rfl, _, rfl, .killed⟩
  | unwaitable e => exact .inr ⟨rfl, _, rfl, .unwaitable e⟩
  | exited code =>
    cases code with
    | none => exact .inr ⟨rfl, "'" ++ c.cmd ++ "' returned " ++ "<Unknown exit code", by simp [EvChild.report], by
        have := @EventFailure.signalled shell c.cmd
        rwa [show "'" ++ c.cmd ++ "' returned <Unknown exit code" = "'" ++ c.cmd ++ "' returned " ++ "<Unknown exit code" by
          rw [show "' returned <Unknown exit code" = "' returned " ++ "<Unknown exit code" by rfl, ← String.append_assoc]] at this⟩
    | some n =>
      by_cases hn : n = 0
      · subst hn; exact .inl ⟨rfl, rfl⟩
      · refine .inr ⟨?_, "'" ++ c.cmd ++ "' returned " ++ toString n, by simp [EvChild.report, hn], .returned n hn⟩
        unfold EvEnd.failure
        split
        · rename_i h; cases h; exact absurd rfl hn
        · rfl

private theorem said_events : ∀ (l : List (EvChild × Instant × EvEnd)), (∀ c t how, (c, t, how) ∈ l → Eventing.Seen shell c t how) →
    (l.flatMap fun p => (p.1.report p.2.2).toList).length = (l.filter fun p => p.2.2.failure).length ∧
    ∀ (k : Nat) (c : EvChild) (t : Instant) (how : EvEnd), (l.filter fun p => p.2.2.failure)[k]? = some (c, t, how) →
      ∃ x, (l.flatMap fun p => (p.1.report p.2.2).toList)[k]? = some ⟨.error, x⟩ ∧ EventFailure shell c.cmd how x
  | [], _ => ⟨rfl, by simp⟩
  | (c, t, how) :: l, hl => by
    obtain ⟨h1, h2⟩ := said_events l fun c t how h => hl c t how (by simp [h])
    rcases report_event (hl c t how (by simp)) with ⟨hf, hr⟩ | ⟨hf, x, hr, ht⟩
    · simp only [List.flatMap_cons, hr, Option.toList_none, List.nil_append, List.filter_cons, hf]
      exact ⟨h1, h2⟩
    · simp only [List.flatMap_cons, hr, Option.toList_some, List.singleton_append, List.filter_cons, hf, if_true,
        List.length_cons, h1, true_and]
      intro k c' t' how' hk
      cases k with
      | zero =>
        simp only [List.getElem?_cons_zero, Option.some.injEq, Prod.mk.injEq] at hk
        obtain ⟨rfl, rfl, rfl⟩ := hk
        exact ⟨x, rfl, ht⟩
      | succ k => exact h2 k c' t' how' hk

/-- **C127.** For each command which has failed, and for no other, one error is logged, in this order. It names the command
(unless there is no shell) and says what is wrong. -/
theorem C127_said {s : Eventing} (h : Eventing.Reach E shell s) :
    s.said.length = (s.ended.filter fun p => p.2.2.failure).length ∧
    ∀ (k : Nat) (c : EvChild) (t : Instant) (how : EvEnd), (s.ended.filter fun p => p.2.2.failure)[k]? = some (c, t, how) →
      ∃ x, s.said[k]? = some ⟨.error, x⟩ ∧ EventFailure shell c.cmd how x := by
  rw [h.inv.said]
  exact said_events s.ended h.inv.seen

/-- **C127.** If there is no process, or it has ended, or it has run for 30 seconds, then the event thread can go on. -/
theorem C127_over {s : Eventing} {c : EvChild} (h : Eventing.Reach E shell s) (hp : s.world.proc = .running)
    (hc : s.child = some c) (ho : c.over s.world.now) :
    ∃ a s', (a = .reap ∨ a = .kill) ∧ s.step E shell a = some s' ∧ s'.child = none ∧ s'.world.evPc = .drain := by
  have hrun := h.inv.pc.mp (by simp [hc])
  have hw : s.world.step E .eventer = some ({ s.world with evPc := .drain }.observe [.eventCmdEnd]) := by
    simp [World.step, hp, World.stepEventer, hrun]
  have hcl : ∀ how, ∃ s', s.close E c how = some s' ∧ s'.child = none ∧ s'.world.evPc = .drain := by
    intro how
    unfold Eventing.close
    rw [hw]
    exact ⟨_, rfl, rfl, rfl⟩
  cases hpr : c.proc with
  | error m =>
    obtain ⟨s', h1, h2⟩ := hcl (.notStarted m)
    exact ⟨.reap, s', .inl rfl, by simp only [Eventing.step, hc, hpr]; exact h1, h2⟩
  | ok p =>
    cases hx : c.exit with
    | some code =>
      obtain ⟨s', h1, h2⟩ := hcl (.exited code)
      exact ⟨.reap, s', .inl rfl, by simp only [Eventing.step, hc, hpr, hx]; exact h1, h2⟩
    | none =>
      have ht : c.since + 30000000000 ≤ s.world.now := by
        rcases ho with ⟨m, ho⟩ | ho | ho
        · rw [hpr] at ho; cases ho
        · exact absurd hx ho
        · exact ho
      obtain ⟨s', h1, h2⟩ := hcl .killed
      refine ⟨.kill, s', .inr rfl, ?_, h2⟩
      simp only [Eventing.step, hc, hpr]
      rw [if_pos (show c.since + (eventLimit : Int) ≤ s.world.now from ht)]
      exact h1

/-- **C127.** Nothing else waits for the command. -/
theorem C127_other {s : Eventing} {a : Action} {w : World} (ha : a ≠ .eventer) (hs : s.world.step E a = some w) :
    s.step E shell (.world a) = some { s with world := w } := by
  have : Eventing.isEventer a = false := by cases a <;> first | rfl | exact absurd rfl ha
  simp [Eventing.step, this, hs]

/-- **C127.** Whatever happens without the process (C31, C32) can happen. -/
theorem C127_total {w : World} (h : Reach E w) : ∃ s, Eventing.Reach E shell s ∧ s.world = w := by
  induction h with
  | init hi => exact ⟨_, .init hi, rfl⟩
  | @step w w' a _ hs ih =>
    obtain ⟨s, hr, rfl⟩ := ih
    by_cases ha : a = .eventer
    · subst ha
      by_cases hp : s.world.evPc = .running
      · obtain ⟨c, hc⟩ := Option.isSome_iff_exists.mp (hr.inv.pc.mpr hp)
        have hcl : ∀ how, ∃ s', s.close E c how = some s' ∧ s'.world = w' := fun how =>
          ⟨_, by unfold Eventing.close; rw [hs]; rfl, rfl⟩
        cases hpr : c.proc with
        | error m =>
          obtain ⟨s', h1, h2⟩ := hcl (.notStarted m)
          exact ⟨s', .step .reap hr (by simp only [Eventing.step, hc, hpr]; exact h1), h2⟩
        | ok p =>
          obtain ⟨s', h1, h2⟩ := hcl (.unwaitable "")
          exact ⟨s', .step (.waitError "") hr (by simp only [Eventing.step, hc, hpr]; exact h1), h2⟩
      · refine ⟨_, .step (.turn none) hr (s' := { s with
            world := w'
            child := (Eventing.command s.world).map fun (cmd, act, e) =>
              ⟨cmd, act, e, s.world.now, EvChild.launch shell cmd act e none, none⟩ }) ?_, rfl⟩
        simp only [Eventing.step, hs]
        rfl
    · exact ⟨{ s with world := w' }, .step (.world a) hr (C127_other ha hs), rfl⟩

/-- **C127.** If threads get their turns within `δ`, then the command is run for the `j`-th event which waits within
`j·(30 s + 8·δ)`, whatever the commands do (with C101). -/
theorem C127_time {r : Eventing.Run E shell} {δ : Nat} (h : r.Turns δ) (hf : r.toRun.Prompt δ) {k : Nat}
    (hst : NotStranded (r.state k).world)
    (hset : ∀ m, k ≤ m → (r.state m).world.ls.config.tokenEventCmd.isSome = true) {l l' : List (String × TokenEvent)}
    (hl : openEvents (r.state k).world = l ++ l') :
    ∃ m x, k ≤ m ∧ r.now m ≤ r.now k + (l.length : Int) * (30000000000 + 8 * (δ : Int)) ∧
      executedEvents (r.state m).world.log = executedEvents (r.state k).world.log ++ l ++ x := by
  obtain ⟨m, x, h1, h2, h3⟩ := C101 hf (h.promptEvents r hf) (k := k) hst hset hl
  refine ⟨m, x, h1, ?_, h3⟩
  have : (((30000000000 + 2 * δ : Nat)) : Int) + 6 * (δ : Int) = 30000000000 + 8 * (δ : Int) := by omega
  rw [this] at h2
  exact h2

/-! ## These are not empty promises -/

namespace Eventing.Run

/-- Nothing happens any more. -/
def still {s : Eventing} (h : Eventing.Reach E shell s) : Eventing.Run E shell where
  state _ := s
  act _ := none
  start := h
  next _ := rfl

/-- One step more at the beginning. -/
def cons (r : Eventing.Run E shell) {s : Eventing} {a : Eventing.Act} (h : Eventing.Reach E shell s)
    (hs : s.step E shell a = some (r.state 0)) : Eventing.Run E shell where
  state
    | 0 => s
    | n + 1 => r.state n
  act
    | 0 => some a
    | n + 1 => r.act n
  start := h
  next
    | 0 => hs
    | n + 1 => r.next n

theorem still_turns {s : Eventing} {δ : Nat} (h : Eventing.Reach E shell s) (h1 : s.world.stepEventer = none)
    (h2 : s.child = none) : (still h).Turns δ where
  time _ hn := absurd h2 hn
  eventer n hn := absurd h1 (hn n (Nat.le_refl _) (by omega)).1
  over n hn := by
    obtain ⟨c, hc, _⟩ := hn n (Nat.le_refl _) (by omega)
    rw [show ((still h).state n).child = none from h2] at hc
    cases hc

theorem Turns.cons {r : Eventing.Run E shell} {δ : Nat} (hf : r.Turns δ) {s : Eventing} {a : Eventing.Act}
    (h : Eventing.Reach E shell s) (hs : s.step E shell a = some (r.state 0))
    (hnow : (r.state 0).world.now = s.world.now ∨
      (s.world.now ≤ (r.state 0).world.now ∧ (s.world.stepEventer = none ∨ s.world.evPc = .running) ∧
        ∀ c, s.child = some c → ¬ c.over s.world.now)) : (r.cons h hs).Turns δ where
  time
    | 0, hn => by
      by_cases hc : (r.state 0).child = none
      · exact ⟨1, by omega, .inr hc⟩
      · obtain ⟨m, _, hm⟩ := hf.time 0 hc
        refine ⟨m + 1, by omega, hm.imp (fun hm => ?_) id⟩
        show s.world.now + 30000000000 ≤ (r.state m).world.now
        have hm : (r.state 0).world.now + 30000000000 ≤ (r.state m).world.now := hm
        rcases hnow with hnow | hnow
        · omega
        · have := hnow.1
          omega
    | n + 1, hn => by
      obtain ⟨m, h1, h2⟩ := hf.time n hn
      exact ⟨m + 1, by omega, h2⟩
  eventer
    | 0, hn => by
      rcases hnow with hnow | ⟨_, hnow, _⟩
      · obtain ⟨m, hm, hb, h'⟩ := hf.eventer 0 fun m hm hb => hn (m + 1) (by omega) (by
          show (r.state m).world.now ≤ s.world.now + (δ : Int)
          rw [← hnow]; exact hb)
        refine ⟨m + 1, by omega, ?_, h'⟩
        show (r.state m).world.now ≤ s.world.now + (δ : Int)
        rw [← hnow]; exact hb
      · have := hn 0 (Nat.le_refl _) (by omega)
        exact absurd hnow (not_or.mpr this)
    | n + 1, hn => by
      obtain ⟨m, hm, hb, h'⟩ := hf.eventer n fun m hm hb => hn (m + 1) (by omega) hb
      exact ⟨m + 1, by omega, hb, h'⟩
  over
    | 0, hn => by
      rcases hnow with hnow | ⟨_, _, hnow⟩
      · obtain ⟨m, hm, hb, h'⟩ := hf.over 0 fun m hm hb => hn (m + 1) (by omega) (by
          show (r.state m).world.now ≤ s.world.now + (δ : Int)
          rw [← hnow]; exact hb)
        refine ⟨m + 1, by omega, ?_, h'⟩
        show (r.state m).world.now ≤ s.world.now + (δ : Int)
        rw [← hnow]; exact hb
      · obtain ⟨c, hc, ho⟩ := hn 0 (Nat.le_refl _) (by omega)
        exact absurd ho (hnow c hc)
    | n + 1, hn => by
      obtain ⟨m, hm, hb, h'⟩ := hf.over n fun m hm hb => hn (m + 1) (by omega) hb
      exact ⟨m + 1, by omega, hb, h'⟩

end Eventing.Run

namespace Eventing

/-- Is the command over? -/
def overB (s : Eventing) : Bool :=
  match s.child with
  | none => false
  | some c => (match c.proc with | .error _ => true | .ok _ => false) || c.exit.isSome || decide (c.since + 30000000000 ≤ s.world.now)

theorem overB_of {s : Eventing} (h : s.overB = false) (c : EvChild) (hc : s.child = some c) : ¬ c.over s.world.now := by
  unfold overB at h
  rw [hc] at h
  simp only [Bool.or_eq_false_iff, decide_eq_false_iff_not] at h
  obtain ⟨⟨h1, h2⟩, h3⟩ := h
  rintro (⟨m, ho⟩ | ho | ho)
  · rw [ho] at h1; cases h1
  · exact ho (by simpa using h2)
  · exact h3 ho

/-- A finite execution in which the clock moves only when nobody can do anything, at whose end nobody can. -/
def eagerB (E : Env) (shell : Commands.Shell) (δ : Nat) : Eventing → List Act → Bool
  | s, [] => decide (s.world.proc = .running) && idleB E s.world && s.world.stepEventer.isNone && s.child.isNone
  | s, a :: l =>
    match s.step E shell a with
    | some s' => a.does.isSome &&
        (s'.world.now == s.world.now || (decide (s.world.now ≤ s'.world.now) && decide (s'.world.now ≤ s.world.now + (δ : Int)) &&
          idleB E s.world && (s.world.stepEventer.isNone || decide (s.world.evPc = .running)) && !s.overB)) &&
        eagerB E shell δ s' l
    | none => false

theorem Run.turns_of {δ : Nat} : ∀ (l : List Act) {s : Eventing}, Reach E shell s → eagerB E shell δ s l = true →
    ∃ r : Run E shell, r.Turns δ ∧ r.toRun.Prompt δ ∧ r.state 0 = s ∧
      ∀ m, ∃ j, j ≤ l.length ∧ s.run E shell (l.take j) = some (r.state m)
  | [], s, hr, h => by
    simp only [eagerB, Bool.and_eq_true, decide_eq_true_eq, Option.isNone_iff_eq_none] at h
    obtain ⟨⟨⟨h1, h2⟩, h3⟩, h4⟩ := h
    refine ⟨Run.still hr, Run.still_turns hr h3 h4, ?_, rfl, fun m => ⟨0, Nat.le_refl _, rfl⟩⟩
    exact Pizauth.Run.still_prompt hr.inv.reach h1 (idle_of hr.inv.reach h2)
  | a :: l, s, hr, h => by
    unfold eagerB at h
    cases hs : s.step E shell a with
    | none => rw [hs] at h; cases h
    | some s1 =>
      rw [hs] at h
      simp only [Bool.and_eq_true, Bool.or_eq_true, beq_iff_eq, decide_eq_true_eq, Option.isNone_iff_eq_none,
        Bool.not_eq_true'] at h
      obtain ⟨⟨hd, hn⟩, hl⟩ := h
      obtain ⟨r, h1, h2, h0, h3⟩ := Run.turns_of l (.step a hr hs) hl
      have hs' : s.step E shell a = some (r.state 0) := by rw [h0]; exact hs
      obtain ⟨x, hx, hw⟩ : ∃ x, a.does = some x ∧ s.world.step E x = some (r.toRun.world 0) := by
        rcases step_world hs' with h | ⟨h, _⟩
        · exact h
        · rw [h] at hd; cases hd
      refine ⟨r.cons hr hs', ?_, ?_, rfl, ?_⟩
      · refine h1.cons hr hs' ?_
        rw [h0]
        exact hn.imp id fun ⟨⟨⟨⟨h1, h2⟩, h3⟩, h4⟩, h5⟩ => ⟨h1, h4, overB_of h5⟩
      · have hp := h2.cons (w := s.world) (a := x) hr.inv.reach hw (by
          show (r.state 0).world.now = _ ∨ _
          rw [show r.toRun.world 0 = s1.world by show (r.state 0).world = _; rw [h0], h0]
          exact hn.imp id fun ⟨⟨⟨⟨h1, h2⟩, h3⟩, h4⟩, h5⟩ => ⟨h2, idle_of hr.inv.reach h3⟩)
        have he : (r.cons hr hs').toRun = r.toRun.cons hr.inv.reach hw := by
          unfold Run.toRun Pizauth.Run.cons
          congr 1
          · funext n; cases n <;> rfl
          · funext n
            cases n with
            | zero => exact hx
            | succ n => rfl
        rw [he]; exact hp
      · intro m
        cases m with
        | zero => exact ⟨0, by simp, rfl⟩
        | succ m =>
          obtain ⟨j, hj, h⟩ := h3 m
          exact ⟨j + 1, by simpa using hj, by simp only [List.take_succ_cons, Eventing.run, hs]; exact h⟩

end Eventing

namespace Demo
open Eventing (Act)

/-- An event is told, and its command is started. -/
def evStart : List Act := sToken.map .world ++ [.turn none, .turn none, .turn none]

/-- The state afterwards. -/
def evState (l : List Act) : Eventing := (Eventing.run env (some "/bin/sh") { world := w0 } l).getD { world := w0 }

/-- C127: it ends with an exit code, by a signal, or successfully. -/
example : (evState (evStart ++ [.exit (some 1), .reap])).said = [⟨.error, "'ev' returned 1"⟩] := by decide +kernel
example : (evState (evStart ++ [.exit none, .reap])).said = [⟨.error, "'ev' returned <Unknown exit code"⟩] := by decide +kernel
example : (evState (evStart ++ [.exit (some 0), .reap])).said = [] ∧
    (evState (evStart ++ [.exit (some 0), .reap])).ended.map (fun p => (p.1.about, p.2.2)) =
      [((0, "ev", "a", .new), .exited (some 0))] := by decide +kernel

/-- It cannot be started. -/
example : (evState (sToken.map .world ++ [.turn none, .turn none, .turn (some "no memory"), .reap])).said =
    [⟨.error, "Couldn't execute 'ev': no memory"⟩] := by decide +kernel
example : ((Eventing.run env none { world := w0 } (evStart ++ [.reap])).map Eventing.said) =
    some [⟨.error, "environment variable not found"⟩] := by decide +kernel

/-- It is killed after 30 seconds, and not before. -/
example : (evState (evStart ++ [.world (.tick 30000000000), .kill])).said = [⟨.error, "'ev' exceeded timeout"⟩] := by
  decide +kernel
example : (Eventing.run env (some "/bin/sh") { world := w0 } (evStart ++ [.world (.tick 29999999999), .kill])).isNone = true := by
  decide +kernel

/-- The clock moves, in steps of ten seconds, while the command hangs. -/
def evHang : List Act :=
  [.turn none, .turn none, .turn none] ++
    (eager env ten 11 (after (sToken ++ [.eventer, .eventer, .eventer]))).map .world ++ [.kill, .turn none]

example : (Eventing.run env (some "/bin/sh") (evState (sToken.map .world)) evHang).map
    (fun s => (s.said, s.world.now, Eventing.eagerB env (some "/bin/sh") ten (evState (sToken.map .world)) evHang)) =
    some ([⟨.error, "'ev' exceeded timeout"⟩], 30000000000, true) := by decide +kernel

/-- The state before. -/
theorem evState_reach (l : List Act) : Eventing.Reach env (some "/bin/sh") (evState l) := by
  have : ∀ (l : List Act) {s : Eventing}, Eventing.Reach env (some "/bin/sh") s → ∀ s', Eventing.run env (some "/bin/sh") s l = some s' →
      Eventing.Reach env (some "/bin/sh") s' := by
    intro l
    induction l with
    | nil => intro s h s' hs; cases hs; exact h
    | cons a l ih =>
      intro s h s' hs
      simp only [Eventing.run] at hs
      split at hs
      · cases hs
      · rename_i s1 h1; exact ih (.step a h h1) s' hs
  unfold evState
  cases h : Eventing.run env (some "/bin/sh") { world := w0 } l with
  | none => exact .init w0_init
  | some s => exact this l (.init w0_init) s h

/-- An infinite execution in which the command hangs: it is killed, and what C127 promises is the case. -/
example : ∃ r : Eventing.Run env (some "/bin/sh"), r.Turns ten ∧ r.toRun.Prompt ten ∧
    openEvents (r.state 0).world = [("a", .new)] ∧ ∃ m x, r.now m ≤ 110000000000 ∧
    executedEvents (r.state m).world.log = ("a", .new) :: x := by
  obtain ⟨r, h1, h2, h0, h3⟩ := Eventing.Run.turns_of (δ := ten) evHang (evState_reach (sToken.map .world)) (by decide +kernel)
  have hset : ∀ m, (r.state m).world.ls.config.tokenEventCmd.isSome = true := by
    intro m
    obtain ⟨j, hj, h⟩ := h3 m
    have hall : (List.range (evHang.length + 1)).all (fun j =>
        (Eventing.run env (some "/bin/sh") (evState (sToken.map .world)) (evHang.take j)).all
          fun s => s.world.ls.config.tokenEventCmd.isSome) = true := by decide +kernel
    have := List.all_eq_true.mp hall j (List.mem_range.mpr (by omega))
    rw [h] at this
    simpa using this
  have h4 : openEvents (evState (sToken.map .world)).world = [("a", .new)] := by decide +kernel
  have h5 : executedEvents (evState (sToken.map .world)).world.log = [] := by decide +kernel
  have h6 : (evState (sToken.map .world)).world.now = 0 := by decide +kernel
  obtain ⟨m, x, _, hb, h⟩ := C127_time h1 h2 (k := 0) (l := [("a", .new)]) (l' := []) (by
    rw [h0]
    intro _
    right; left
    decide +kernel) (fun m _ => hset m) (by rw [h0, h4]; rfl)
  refine ⟨r, h1, h2, by rw [h0, h4], m, x, ?_, ?_⟩
  · have : r.now 0 = 0 := by show (r.state 0).world.now = 0; rw [h0, h6]
    rw [this] at hb
    simpa [ten] using hb
  · rw [h0, h5] at h; exact h

end Demo
end Pizauth

import Verif.Spec.Eventing
import Verif.Proof.PromptEvents
import Verif.Proof.Events

/-!
# The process which runs `token_event_cmd`
-/

namespace Pizauth

variable {E : Env} {shell : Commands.Shell}

theorem eventCommands_skip {l : Log} (h : ∀ p ∈ l, ∀ c n e, p.2 ≠ .eventCmd c n e) (L : Log) :
    eventCommands (l ++ L) = eventCommands L := by
  induction l with
  | nil => rfl
  | cons p l ih =>
    have hp := h p (by simp)
    have ih := ih fun q hq => h q (by simp [hq])
    obtain ⟨t, o⟩ := p
    cases o <;> first | exact absurd rfl (hp _ _ _) | exact ih

theorem StepR.other_commands {w w' : World} {a : Action} (hs : StepR E w a w') (ha : Eventing.isEventer a = false) :
    w'.evPc = w.evPc ∧ eventCommands w'.log = eventCommands w.log ∧ w.now ≤ w'.now := by
  cases hs
  case run tid inp op rest f ht hx =>
    exact ⟨rfl, eventCommands_skip (fun p hp => (hx.no_eventCmd _ (run_log_mem hp)).1) _, Int.le_refl _⟩
  case notScan ls' hp hn =>
    refine ⟨rfl, eventCommands_skip (fun p hp => ?_) _, Int.le_refl _⟩
    obtain ⟨_, _, _, h⟩ := authCmds_mem hp; rw [h]; exact nofun
  case tick d => exact ⟨rfl, rfl, by simp only; omega⟩
  all_goals first
    | exact ⟨rfl, rfl, Int.le_refl _⟩
    | cases ha

theorem StepR.eventer_commands {w w' : World} (hs : StepR E w .eventer w') :
    w'.now = w.now ∧ eventCommands w'.log = eventCommands w.log ++ ((Eventing.command w).map fun x => (w.now, x)).toList ∧
    ((Eventing.command w).isSome = true ↔ w'.evPc = .running) := by
  cases hs
  case evWait h1 h2 => simp [Eventing.command, h1]
  case evEmpty h1 h2 => simp [Eventing.command, h1]
  case evPop h1 h2 => simp [Eventing.command, h1]
  case evNoCmd h1 h2 => simp [Eventing.command, h1, h2]
  case evCmd h1 h2 => simp [Eventing.command, h1, h2, eventCommands]
  case evEnd h1 => simp [Eventing.command, h1, eventCommands]

namespace Eventing

/-- What is known about a command whose end was noticed. -/
structure Seen (shell : Commands.Shell) (c : EvChild) (t : Instant) (how : EvEnd) : Prop where
  since : c.since ≤ t
  proc : ∃ fails, c.proc = EvChild.launch shell c.cmd c.act c.event fails
  killed : how = .killed → c.since + 30000000000 ≤ t
  notStarted : ∀ m, how = .notStarted m ↔ c.proc = .error m
  exited : ∀ code, how = .exited code → c.exit = some code

/-- What holds in every state. -/
structure Inv (E : Env) (shell : Commands.Shell) (s : Eventing) : Prop where
  reach : Pizauth.Reach E s.world
  cmds : eventCommands s.world.log = s.ended.map (·.1.about) ++ s.child.toList.map EvChild.about
  pc : s.child.isSome = true ↔ s.world.evPc = .running
  since : ∀ c, s.child = some c → c.since ≤ s.world.now
  proc : ∀ c, s.child = some c → ∃ fails, c.proc = EvChild.launch shell c.cmd c.act c.event fails
  said : s.said = s.ended.flatMap fun p => (p.1.report p.2.2).toList
  seen : ∀ c t how, (c, t, how) ∈ s.ended → Seen shell c t how

theorem Inv.close {s s' : Eventing} (h : s.Inv E shell) {c : EvChild} {how : EvEnd} (hc : s.child = some c)
    (hs : s.close E c how = some s') (hk : how = .killed → c.since + 30000000000 ≤ s.world.now)
    (hn : ∀ m, how = .notStarted m ↔ c.proc = .error m) (hx : ∀ code, how = .exited code → c.exit = some code) :
    s'.Inv E shell ∧ s'.child = none := by
  unfold Eventing.close at hs
  obtain ⟨w, hw, rfl⟩ := Option.map_eq_some_iff.mp hs
  have hst := (stepR_of_step h.reach.inv0.wf hw).2
  obtain ⟨hnow, hcmd, hpc⟩ := hst.eventer_commands
  have hrun := h.pc.mp (by simp [hc])
  have hnone : Eventing.command s.world = none := by simp [Eventing.command, hrun]
  refine ⟨⟨.step _ h.reach hw, ?_, ?_, by simp, by simp, ?_, ?_⟩, rfl⟩
  · simp only [hcmd, hnone, h.cmds, hc]; simp
  · rw [hnone] at hpc; simpa using hpc
  · simp [h.said]
  · intro c' t how' hm
    rcases List.mem_append.mp hm with hm | hm
    · exact h.seen _ _ _ hm
    · simp only [List.mem_singleton, Prod.mk.injEq] at hm
      obtain ⟨rfl, rfl, rfl⟩ := hm
      exact ⟨h.since _ hc, h.proc _ hc, hk, hn, hx⟩

theorem Inv.step {s s' : Eventing} {a : Act} (h : s.Inv E shell) (hs : s.step E shell a = some s') : s'.Inv E shell := by
  cases a with
  | world a =>
    simp only [Eventing.step] at hs
    split at hs
    · cases hs
    · rename_i ha
      obtain ⟨w, hw, rfl⟩ := Option.map_eq_some_iff.mp hs
      obtain ⟨h1, h2, h3⟩ := (stepR_of_step h.reach.inv0.wf hw).2.other_commands (by simpa using ha)
      exact ⟨.step _ h.reach hw, by simp only [h2]; exact h.cmds, by simp only [h1]; exact h.pc,
        fun c hc => Int.le_trans (h.since c hc) h3, h.proc, h.said, h.seen⟩
  | turn fails =>
    simp only [Eventing.step] at hs
    have hrun : s.world.evPc ≠ .running := by intro hc; rw [hc] at hs; cases hs
    have hs : (s.world.step E .eventer).map (fun w =>
        { s with world := w
                 child := (command s.world).map fun (cmd, act, e) =>
                   (⟨cmd, act, e, s.world.now, EvChild.launch shell cmd act e fails, none⟩ : EvChild) }) = some s' := by
      split at hs
      · cases hs
      · exact hs
    obtain ⟨w, hw, rfl⟩ := Option.map_eq_some_iff.mp hs
    obtain ⟨hnow, hcmd, hpc⟩ := (stepR_of_step h.reach.inv0.wf hw).2.eventer_commands
    have hnone : s.child = none := by
      cases hc : s.child with
      | none => rfl
      | some c => exact absurd (h.pc.mp (by simp [hc])) hrun
    refine ⟨.step _ h.reach hw, ?_, ?_, ?_, ?_, h.said, h.seen⟩
    · simp only [hcmd, h.cmds, hnone]
      cases command s.world <;> simp [EvChild.about]
    · simpa using hpc
    · intro c hc
      obtain ⟨⟨cmd, act, e⟩, _, rfl⟩ := Option.map_eq_some_iff.mp hc
      simp [hnow]
    · intro c hc
      obtain ⟨⟨cmd, act, e⟩, _, rfl⟩ := Option.map_eq_some_iff.mp hc
      exact ⟨fails, rfl⟩
  | exit code =>
    simp only [Eventing.step] at hs
    split at hs
    · rename_i c hc
      split at hs
      · cases hs
        refine ⟨h.reach, ?_, ?_, ?_, ?_, h.said, h.seen⟩
        · rw [h.cmds, hc]; rfl
        · rw [← h.pc, hc]; simp
        · intro c' hc'; cases hc'; exact h.since c hc
        · intro c' hc'; cases hc'; exact h.proc c hc
      · cases hs
    · cases hs
  | reap =>
    simp only [Eventing.step] at hs
    split at hs
    · rename_i c hc
      split at hs
      · rename_i m hp
        exact (h.close hc hs nofun (fun m' => by rw [hp]; simp) nofun).1
      · rename_i p code hp hx
        exact (h.close hc hs nofun (fun m' => by rw [hp]; simp) (fun code' hcode => by cases hcode; exact hx)).1
      · cases hs
    · cases hs
  | kill =>
    simp only [Eventing.step] at hs
    split at hs
    · rename_i c hc
      split at hs
      · rename_i p hp
        split at hs
        · rename_i ht
          exact (h.close hc hs (fun _ => ht) (fun m' => by rw [hp]; simp) nofun).1
        · cases hs
      · cases hs
    · cases hs
  | waitError e =>
    simp only [Eventing.step] at hs
    split at hs
    · rename_i c hc
      split at hs
      · rename_i p hp
        exact (h.close hc hs nofun (fun m' => by rw [hp]; simp) nofun).1
      · cases hs
    · cases hs

theorem Reach.inv {s : Eventing} (h : Eventing.Reach E shell s) : s.Inv E shell := by
  induction h with
  | init hi =>
    exact ⟨.init hi, by simp [hi.log, eventCommands], by simp [hi.evPc], by simp, by simp, rfl, by simp⟩
  | step a _ hs ih => exact ih.step hs

theorem close_world {s s' : Eventing} {c : EvChild} {how : EvEnd} (hs : s.close E c how = some s') :
    s.world.step E .eventer = some s'.world := by
  unfold Eventing.close at hs
  obtain ⟨w, hw, rfl⟩ := Option.map_eq_some_iff.mp hs
  exact hw

/-- What a step does in the server. -/
theorem step_world {s s' : Eventing} {a : Act} (hs : s.step E shell a = some s') :
    (∃ x, a.does = some x ∧ s.world.step E x = some s'.world) ∨ (a.does = none ∧ s'.world = s.world) := by
  cases a with
  | world a =>
    simp only [Eventing.step] at hs
    split at hs
    · cases hs
    · obtain ⟨w, hw, rfl⟩ := Option.map_eq_some_iff.mp hs
      exact .inl ⟨a, rfl, hw⟩
  | turn fails =>
    simp only [Eventing.step] at hs
    split at hs
    · cases hs
    · obtain ⟨w, hw, rfl⟩ := Option.map_eq_some_iff.mp hs
      exact .inl ⟨.eventer, rfl, hw⟩
  | exit code =>
    simp only [Eventing.step] at hs
    split at hs
    · split at hs
      · cases hs; exact .inr ⟨rfl, rfl⟩
      · cases hs
    · cases hs
  | reap =>
    simp only [Eventing.step] at hs
    split at hs
    · split at hs
      · exact .inl ⟨.eventer, rfl, close_world hs⟩
      · exact .inl ⟨.eventer, rfl, close_world hs⟩
      · cases hs
    · cases hs
  | kill =>
    simp only [Eventing.step] at hs
    split at hs
    · split at hs
      · split at hs
        · exact .inl ⟨.eventer, rfl, close_world hs⟩
        · cases hs
      · cases hs
    · cases hs
  | waitError e =>
    simp only [Eventing.step] at hs
    split at hs
    · split at hs
      · exact .inl ⟨.eventer, rfl, close_world hs⟩
      · cases hs
    · cases hs

/-- As long as the event thread waits, it waits for the same command. -/
theorem step_child {s s' : Eventing} {a : Act} {c : EvChild} (hs : s.step E shell a = some s')
    (ha : a.does ≠ some .eventer) (hc : s.child = some c) :
    ∃ c', s'.child = some c' ∧ c'.since = c.since ∧ c'.proc = c.proc := by
  cases a with
  | world a =>
    simp only [Eventing.step] at hs
    split at hs
    · cases hs
    · obtain ⟨w, hw, rfl⟩ := Option.map_eq_some_iff.mp hs
      exact ⟨c, hc, rfl, rfl⟩
  | exit code =>
    simp only [Eventing.step, hc] at hs
    split at hs
    · cases hs; exact ⟨_, rfl, rfl, rfl⟩
    · cases hs
  | turn _ | reap | kill | waitError _ => exact absurd rfl ha

end Eventing

namespace Eventing.Run

variable (r : Eventing.Run E shell)

theorem reach (n : Nat) : Eventing.Reach E shell (r.state n) := by
  induction n with
  | zero => exact r.start
  | succ n ih =>
    have h := r.next n
    split at h
    · exact .step _ ih h
    · rw [h]; exact ih

/-- The execution of the server. -/
def toRun : Pizauth.Run E where
  world n := (r.state n).world
  action n := (r.act n).bind Eventing.Act.does
  start := r.start.inv.reach
  next n := by
    have h := r.next n
    cases ha : r.act n with
    | none => rw [ha] at h; simp only [Option.bind_none]; rw [h]
    | some a =>
      rw [ha] at h
      rcases Eventing.step_world h with ⟨x, hx, hw⟩ | ⟨hx, hw⟩
      · simp only [Option.bind_some, hx]; exact hw
      · simp only [Option.bind_some, hx]; exact hw

theorem child_keep {n : Nat} {c : EvChild} (ha : r.toRun.action n ≠ some .eventer) (hc : (r.state n).child = some c) :
    ∃ c', (r.state (n + 1)).child = some c' ∧ c'.since = c.since ∧ c'.proc = c.proc := by
  have h := r.next n
  split at h
  · rename_i a he
    refine Eventing.step_child h (fun hd => ha ?_) hc
    show (r.act n).bind Eventing.Act.does = _
    rw [he]; exact hd
  · rw [h]; exact ⟨c, hc, rfl, rfl⟩

/-- The event thread goes on after 30 seconds, whatever the command does. -/
theorem Turns.command {δ : Nat} (h : r.Turns δ) (hclock : ∀ n, r.now (n + 1) ≤ r.now n + (δ : Int)) {n : Nat}
    (hp : (r.state n).world.evPc = .running) :
    ∃ m, n ≤ m ∧ r.now m ≤ r.now n + (30000000000 + 2 * (δ : Int)) ∧ r.toRun.action m = some .eventer := by
  refine Classical.byContradiction fun hno => ?_
  have hno : ∀ m, n ≤ m → r.now m ≤ r.now n + (30000000000 + 2 * (δ : Int)) → r.toRun.action m ≠ some .eventer :=
    fun m h1 h2 h3 => hno ⟨m, h1, h2, h3⟩
  obtain ⟨c, hc⟩ := Option.isSome_iff_exists.mp ((r.reach n).inv.pc.mpr hp)
  have hsince : c.since ≤ r.now n := (r.reach n).inv.since c hc
  have hkeep : ∀ m, n ≤ m → r.now m ≤ r.now n + (30000000000 + 2 * (δ : Int)) →
      ∃ c', (r.state m).child = some c' ∧ c'.since = c.since := by
    intro m hm
    induction hm with
    | refl => exact fun _ => ⟨c, hc, rfl⟩
    | @step m hm ih =>
      intro hb
      have hmono : r.now m ≤ r.now (m + 1) := r.toRun.now_le_succ m
      obtain ⟨c', h1, h2⟩ := ih (Int.le_trans hmono hb)
      obtain ⟨c'', h3, h4, _⟩ := r.child_keep (hno m hm (Int.le_trans hmono hb)) h1
      exact ⟨c'', h3, h4.trans h2⟩
  obtain ⟨k, hnk, hk⟩ := h.time n (by rw [hc]; simp)
  have hk : r.now n + 30000000000 ≤ r.now k := by
    rcases hk with hk | hk
    · exact hk
    · refine Classical.byContradiction fun hlt => ?_
      obtain ⟨c', h1, _⟩ := hkeep k hnk (by omega)
      rw [hk] at h1
      cases h1
  obtain ⟨k', hk', hle, hfirst⟩ := Run.first (n := n) (P := fun m => r.now n + 30000000000 ≤ r.now m) ⟨k, hnk, hk⟩
  have hb : r.now k' ≤ r.now n + (30000000000 + (δ : Int)) := by
    by_cases he : k' = n
    · subst he; omega
    · have h1 := hfirst (k' - 1) (by omega) (by omega)
      have h2 := hclock (k' - 1)
      rw [show k' - 1 + 1 = k' by omega] at h2
      omega
  obtain ⟨m, hm, hmb, ha⟩ := h.over k' fun m hm hmb => by
    obtain ⟨c', h1, h2⟩ := hkeep m (by omega) (by omega)
    have : r.now k' ≤ r.now m := r.toRun.now_mono hm
    have hle : r.now n + 30000000000 ≤ r.now k' := hle
    refine ⟨c', h1, .inr (.inr ?_)⟩
    rw [h2]
    show c.since + 30000000000 ≤ r.now m
    omega
  exact hno m (by omega) (by omega) ha

theorem Turns.promptEvents {δ : Nat} (h : r.Turns δ) (hf : r.toRun.Prompt δ) :
    r.toRun.PromptEvents δ (30000000000 + 2 * δ) where
  eventer := h.eventer
  command n hp := by
    obtain ⟨m, h1, h2, h3⟩ := h.command r hf.clock hp
    refine ⟨m, h1, ?_, h3⟩
    have : (((30000000000 + 2 * δ : Nat)) : Int) = 30000000000 + 2 * (δ : Int) := by omega
    rw [this]
    exact h2

end Eventing.Run
end Pizauth

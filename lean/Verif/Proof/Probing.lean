import Verif.Spec.Probing
import Verif.Proof.Deadline
import Verif.Proof.Events
import Verif.Proof.Refresh
import Verif.Proof.TraceInv

/-!
# The processes which run `transient_error_if_cmd`
-/

namespace Pizauth

variable {E : Env} {shell : Commands.Shell}

theorem probeCommands_skip {i : Nat} {l : Log} (h : ∀ p ∈ l, ∀ j c n, p.2 ≠ .transientCmd j c n) (L : Log) :
    probeCommands i (l ++ L) = probeCommands i L := by
  induction l with
  | nil => rfl
  | cons p l ih =>
    have hp := h p (by simp)
    have ih := ih fun q hq => h q (by simp [hq])
    obtain ⟨t, o⟩ := p
    cases o <;> first | exact absurd rfl (hp _ _ _) | exact ih

theorem verdicts_skip {l : Log} (h : ∀ p ∈ l, ∀ j b, p.2 ≠ .transientCmdEnd j b) (L : Log) :
    verdicts (l ++ L) = verdicts L := by
  induction l with
  | nil => rfl
  | cons p l ih =>
    have hp := h p (by simp)
    have ih := ih fun q hq => h q (by simp [hq])
    obtain ⟨t, o⟩ := p
    cases o <;> first | exact absurd rfl (hp _ _) | exact ih

/-- Thread `i` waits for a command. -/
def Waiting (w : World) (i : Nat) : Prop := ∃ id act, .rfCmdWait id act ∈ w.threads i

theorem Waiting.alone {w : World} {i : Nat} (hr : Reach E w) (h : Waiting w i) :
    i ≠ 0 ∧ i < w.nextTid ∧ ∃ id act, w.threads i = [.rfCmdWait id act] := by
  obtain ⟨id, act, h⟩ := h
  obtain ⟨h0, h1⟩ := (Reach.shape _ hr).refreshing h (h := id) rfl
  refine ⟨h0, ?_, id, act, h1⟩
  exact hr.inv0.lt_of_mem h1

theorem ExecR.no_probe {S : Static} {now : Instant} {wall : SysTime} {ls : LockedState} {tid : Nat} {op : Op} {inp : Input}
    {f : Eff} (hx : ExecR E S now wall ls tid op inp f) (h1 : ∀ id a c, op ≠ .rfCmd id a c) (h2 : ∀ id a, op ≠ .rfCmdWait id a) :
    (∀ o ∈ f.obs, (∀ j c n, o ≠ .transientCmd j c n) ∧ ∀ j b, o ≠ .transientCmdEnd j b) ∧
    ∀ id a, .rfCmdWait id a ∉ f.next := by
  cases hx <;> first
    | exact absurd rfl (h1 _ _ _)
    | exact absurd rfl (h2 _ _)
    | (simp; done)
    | (constructor <;> simp <;> split <;> simp; done)

theorem StepR.other_probes {w w' : World} {a : Action} (hr : Reach E w) (hs : StepR E w a w')
    (ha : Probing.busy w a = false) (i : Nat) :
    (Waiting w' i ↔ Waiting w i) ∧ probeCommands i w'.log = probeCommands i w.log ∧ verdicts w'.log = verdicts w.log ∧
    w.now ≤ w'.now := by
  have h0 := hr.inv0
  have hkeep : Waiting w i → (∀ inp, a ≠ .run i inp) → Waiting w' i := by
    intro hw hne
    obtain ⟨g0, g1, _⟩ := hw.alone hr
    unfold Waiting
    rw [hs.threads_other g1 g0 hne]
    exact hw
  cases hs
  case run tid inp op rest f ht hx =>
    have hb : (∀ id a c, op ≠ .rfCmd id a c) ∧ ∀ id a, op ≠ .rfCmdWait id a := by
      constructor <;> · intros; rintro rfl; simp [Probing.busy, ht] at ha
    obtain ⟨n1, n2⟩ := hx.no_probe hb.1 hb.2
    have hrest : ∀ id a, .rfCmdWait id a ∉ rest := by
      intro id a hm
      obtain ⟨_, h1⟩ := (Reach.shape _ hr).refreshing (i := tid) (o := .rfCmdWait id a) (h := id)
        (by rw [ht]; exact List.mem_cons_of_mem _ hm) rfl
      rw [ht] at h1
      cases h1
      cases hm
    refine ⟨⟨?_, ?_⟩, probeCommands_skip (fun p hp => (n1 _ (run_log_mem hp)).1) _,
      verdicts_skip (fun p hp => (n1 _ (run_log_mem hp)).2) _, Int.le_refl _⟩
    · rintro ⟨id, act, hm⟩
      rcases mem_apply_threads hm with ⟨_, h | h⟩ | ⟨_, h, _⟩ | ⟨_, h, _⟩
      · exact absurd h (n2 _ _)
      · exact absurd h (hrest _ _)
      · obtain ⟨_, _, h, _⟩ := hx.spawn_rfStart h
        cases h
      · exact ⟨id, act, h⟩
    · intro hw
      refine hkeep hw ?_
      intro inp' he
      cases he
      obtain ⟨_, _, id, act, h1⟩ := hw.alone hr
      rw [ht] at h1
      cases h1
      exact hb.2 _ _ rfl
  case notScan ls' hp hn =>
    have hm : ∀ p ∈ ((w.ls.details.flatMap (authCmdFor E w.ls.config w.now)).map fun o => (w.now, o)).reverse,
        (∀ j c n, p.2 ≠ .transientCmd j c n) ∧ ∀ j b, p.2 ≠ .transientCmdEnd j b := by
      intro p hp
      obtain ⟨_, _, _, h⟩ := authCmds_mem hp
      rw [h]
      exact ⟨nofun, nofun⟩
    exact ⟨Iff.rfl, probeCommands_skip (fun p hp => (hm p hp).1) w.log, verdicts_skip (fun p hp => (hm p hp).2) w.log,
      Int.le_refl _⟩
  case tick d => exact ⟨Iff.rfl, rfl, rfl, by simp only; omega⟩
  case connect buf hc =>
    refine ⟨⟨?_, fun h => hkeep h (by intro inp hc; cases hc)⟩, rfl, rfl, Int.le_refl _⟩
    rintro ⟨id, act, hm⟩
    simp only [setThread] at hm
    split at hm
    · simp at hm
    · exact ⟨id, act, hm⟩
  case http buf sec hp =>
    refine ⟨⟨?_, fun h => hkeep h (by intro inp hc; cases hc)⟩, rfl, rfl, Int.le_refl _⟩
    rintro ⟨id, act, hm⟩
    simp only [setThread] at hm
    split at hm
    · simp at hm
    · exact ⟨id, act, hm⟩
  case refScan hp =>
    refine ⟨⟨?_, fun h => hkeep h (by intro inp hc; cases hc)⟩, rfl, rfl, Int.le_refl _⟩
    rintro ⟨id, act, hm⟩
    simp only at hm
    rcases spawnAll_cases w.threads w.nextTid i _ with ⟨_, h1⟩ | ⟨_, op, hop, h1⟩ | ⟨_, h1⟩
    · rw [h1] at hm; exact ⟨id, act, hm⟩
    · rw [h1] at hm
      simp only [List.mem_singleton] at hm
      subst hm
      simp at hop
    · rw [h1] at hm; exact ⟨id, act, hm⟩
  all_goals exact ⟨Iff.rfl, rfl, rfl, Int.le_refl _⟩

/-- Thread `i` starts a command. -/
theorem step_probe {w w' : World} {i id : Nat} {act cmd : String} {inp : Input} (hr : Reach E w)
    (ht : .rfCmd id act cmd ∈ w.threads i) (hs : w.step E (.run i inp) = some w') :
    w'.now = w.now ∧ w'.log = (w.now, .transientCmd i cmd act) :: w.log ∧ w'.threads i = [.rfCmdWait id act] ∧
    ∀ j, Waiting w' j ↔ Waiting w j ∨ j = i := by
  obtain ⟨h0, h1⟩ := (Reach.shape _ hr).refreshing ht (h := id) rfl
  have hlt := hr.inv0.lt_of_mem h1
  have hp := (stepR_of_step hr.inv0.wf hs).1
  simp only [World.step, hp, h1, exec, Option.some.injEq] at hs
  subst hs
  have hti : ∀ j, j ≠ i → (w.apply i [] { ls := w.ls, obs := [.transientCmd i cmd act], next := [.rfCmdWait id act] }).threads j =
      w.threads j := fun j hj => by simp [World.apply, spawnAll, setThread, hj]
  have hii : (w.apply i [] { ls := w.ls, obs := [.transientCmd i cmd act], next := [.rfCmdWait id act] }).threads i =
      [.rfCmdWait id act] := by simp [World.apply, spawnAll, setThread]
  refine ⟨rfl, rfl, hii, fun j => ?_⟩
  by_cases hj : j = i
  · subst hj
    exact ⟨fun _ => .inr rfl, fun _ => ⟨id, act, by rw [hii]; simp⟩⟩
  · unfold Waiting
    rw [hti j hj]
    simp [hj]

/-- Thread `i` goes on. -/
theorem step_verdict {w w' : World} {i : Nat} {inp : Input} (hr : Reach E w)
    (ht : Waiting w i) (hs : w.step E (.run i inp) = some w') :
    w'.now = w.now ∧ w'.log = (w.now, .transientCmdEnd i inp.cmdOk) :: w.log ∧
    ∀ j, Waiting w' j ↔ Waiting w j ∧ j ≠ i := by
  obtain ⟨h0, hlt, id, act, h1⟩ := ht.alone hr
  have hp := (stepR_of_step hr.inv0.wf hs).1
  simp only [World.step, hp, h1, exec, Option.some.injEq] at hs
  subst hs
  refine ⟨rfl, rfl, fun j => ?_⟩
  by_cases hj : j = i
  · subst hj
    simp only [Waiting, World.apply, spawnAll, setThread]
    cases inp.cmdOk <;> simp
  · simp [Waiting, World.apply, spawnAll, setThread, hj]

/-- It always can. -/
theorem step_verdict_some {w : World} {i : Nat} (hr : Reach E w) (hp : w.proc = .running) (ht : Waiting w i) (inp : Input) :
    ∃ w', w.step E (.run i inp) = some w' := by
  obtain ⟨h0, hlt, id, act, h1⟩ := ht.alone hr
  simp only [World.step, hp, h1, exec]
  exact ⟨_, rfl⟩

theorem SaysAll.no_cmd {i : Nat} : ∀ {tail : List Op} {m : List Obs}, SaysAll i tail m → ∀ {j c n},
    .transientCmd j c n ∉ m
  | [], _, h, _, _, _ => by cases h; simp
  | _ :: _, _, ⟨os, m', h1, h2, h3⟩, j, c, n => by
    subst h3
    simp only [List.mem_append, not_or]
    refine ⟨h2.no_cmd, ?_⟩
    cases h1 <;> simp
    rename_i h
    rcases h with ⟨_, rfl⟩ | rfl <;> simp

/-- A thread which has run the command got a transient failure before. -/
theorem Reach.cmd_after {w : World} (hr : Reach E w) {i : Nat} (hi : i ≠ 0) (hd : w.threads i = []) {cmd n : String}
    (hm : .transientCmd i cmd n ∈ threadLog i w.log) :
    ∃ u a r net, .resp i u (refreshPost a r) net ∈ threadLog i w.log ∧ net.IsTransient := by
  obtain ⟨l, o, tail, m, h1, h2, h3, h4, h5⟩ := hr.finished hi hd (by intro h; rw [h] at hm; cases hm)
  have hml : .transientCmd i cmd n ∈ l := by
    rw [h5] at hm
    exact (List.mem_append.mp hm).resolve_left h4.no_cmd
  have hsome : o.refreshHandle.isSome = true := by
    rcases h1.exchange_mem with ⟨c, l0, h1, h2⟩ | ⟨b, s, rfl⟩ | ⟨id, rfl⟩ | h1
    · rcases h2 _ hml with ⟨_, h⟩ | ⟨_, _, h⟩ | h | ⟨_, h⟩ <;> simp at h
    · simp at hml
    · cases h1; cases hml
    · exact h1
  have key : ∀ {id : Nat} {c : RfCtx} {net : Net}, StepTo E w i [] (.rfStart id) [.rfSend c] → net.IsTransient →
      .resp i c.tokenUri c.form net ∈ l →
      ∃ u a r net, .resp i u (refreshPost a r) net ∈ threadLog i w.log ∧ net.IsTransient := by
    intro id c net k1 k2 k3
    obtain ⟨_, _, _, _, a, _, r, _, _, _, _, _, _, _, _, _, _, rfl, _⟩ := refreshBegan k1
    exact ⟨_, a, r, net, by rw [h5]; exact List.mem_append.mpr (.inr k3), k2⟩
  cases h1 with
  | http => cases hsome
  | exSend => cases hsome
  | exAwait => cases hsome
  | exSleep => cases hsome
  | exDone => cases hsome
  | fail => cases hsome
  | rfStart => cases hsome
  | rfSend => cases hml
  | rfAwait => simp at hml
  | rfPerm => simp at hml
  | rfNow => simp at hml
  | rfStore => simp at hml
  | rfTransient => simp at hml
  | rfCmd => simp at hml
  | rfCmdWait k1 k2 => exact key k1 k2 (by simp)
  | rfCmdOk k1 k2 => exact key k1 k2 (by simp)
  | rfCmdErr k1 k2 => exact key k1 k2 (by simp)

namespace Probing

/-- What is known about a command whose end was noticed. -/
structure Seen (shell : Commands.Shell) (c : Probe) (t : Instant) (how : ProbeEnd) : Prop where
  since : c.since ≤ t
  proc : ∃ fails, c.proc = Probe.launch shell c.cmd c.act fails
  killed : how = .killed → c.since + 180000000000 ≤ t
  notStarted : how = .notStarted ↔ c.proc = none
  exited : ∀ code, how = .exited code → c.exit = some code

/-- What holds in every state. -/
structure Inv (E : Env) (shell : Commands.Shell) (s : Probing) : Prop where
  reach : Pizauth.Reach E s.world
  cmds : ∀ i, probeCommands i s.world.log =
    (s.ended.filter (·.1 == i)).map (·.2.1.about) ++ (s.probes i).toList.map Probe.about
  verdicts : verdicts s.world.log = s.ended.map fun p => (p.2.2.1, p.1, p.2.2.2.ok)
  pc : ∀ i, (s.probes i).isSome = true ↔ Waiting s.world i
  since : ∀ i c, s.probes i = some c → c.since ≤ s.world.now
  proc : ∀ i c, s.probes i = some c → ∃ fails, c.proc = Probe.launch shell c.cmd c.act fails
  seen : ∀ i c t how, (i, c, t, how) ∈ s.ended → Seen shell c t how

theorem set_self (f : Nat → Option Probe) (i : Nat) (c : Option Probe) : set f i c i = c := by simp [set]
theorem set_ne (f : Nat → Option Probe) {i j : Nat} (c : Option Probe) (h : j ≠ i) : set f i c j = f j := by simp [set, h]

theorem Inv.close {s s' : Probing} (h : s.Inv E shell) {i : Nat} {c : Probe} {how : ProbeEnd} (hc : s.probes i = some c)
    (hs : s.close E i c how = some s') (hk : how = .killed → c.since + 180000000000 ≤ s.world.now)
    (hn : how = .notStarted ↔ c.proc = none) (hx : ∀ code, how = .exited code → c.exit = some code) : s'.Inv E shell := by
  unfold Probing.close at hs
  obtain ⟨w, hw, rfl⟩ := Option.map_eq_some_iff.mp hs
  have hwait := (h.pc i).mp (by simp [hc])
  obtain ⟨hnow, hlog, hpc⟩ := step_verdict h.reach hwait hw
  refine ⟨.step _ h.reach hw, ?_, ?_, ?_, ?_, ?_, ?_⟩
  · intro j
    have : probeCommands j w.log = probeCommands j s.world.log := by rw [hlog]; rfl
    simp only [this, h.cmds j, List.filter_append, List.map_append, List.append_assoc]
    congr 1
    by_cases hj : j = i
    · subst hj; simp [set_self, hc]
    · have : ¬ i = j := fun h => hj h.symm
      simp [set_ne _ _ hj, this]
  · simp only [hlog, Pizauth.verdicts, h.verdicts, List.map_append, List.map_cons, List.map_nil]
  · intro j
    simp only [hpc j]
    by_cases hj : j = i
    · subst hj; simp [set_self]
    · rw [set_ne _ _ hj, h.pc j]; simp [hj]
  · intro j c' hj
    dsimp only at hj
    by_cases he : j = i
    · subst he; rw [set_self] at hj; cases hj
    · rw [set_ne _ _ he] at hj; simp only [hnow]; exact h.since j c' hj
  · intro j c' hj
    dsimp only at hj
    by_cases he : j = i
    · subst he; rw [set_self] at hj; cases hj
    · rw [set_ne _ _ he] at hj; exact h.proc j c' hj
  · intro j c' t how' hm
    rcases List.mem_append.mp hm with hm | hm
    · exact h.seen _ _ _ _ hm
    · simp only [List.mem_singleton, Prod.mk.injEq] at hm
      obtain ⟨rfl, rfl, rfl, rfl⟩ := hm
      exact ⟨h.since _ _ hc, h.proc _ _ hc, hk, hn, hx⟩

theorem Inv.step {s s' : Probing} {a : Act} (h : s.Inv E shell) (hs : s.step E shell a = some s') : s'.Inv E shell := by
  cases a with
  | world a =>
    simp only [Probing.step] at hs
    split at hs
    · cases hs
    · rename_i ha
      obtain ⟨w, hw, rfl⟩ := Option.map_eq_some_iff.mp hs
      have ho := fun i => (stepR_of_step h.reach.inv0.wf hw).2.other_probes h.reach (by simpa using ha) i
      exact ⟨.step _ h.reach hw, fun i => by simp only [(ho i).2.1]; exact h.cmds i,
        by simp only [(ho 0).2.2.1]; exact h.verdicts, fun i => by simp only [(ho i).1]; exact h.pc i,
        fun i c hc => Int.le_trans (h.since i c hc) (ho i).2.2.2, h.proc, h.seen⟩
  | start i fails =>
    simp only [Probing.step] at hs
    split at hs
    · rename_i id act cmd rest ht
      obtain ⟨w, hw, rfl⟩ := Option.map_eq_some_iff.mp hs
      have hm : .rfCmd id act cmd ∈ s.world.threads i := by rw [ht]; simp
      obtain ⟨hnow, hlog, _, hpc⟩ := step_probe h.reach hm hw
      have hnone : s.probes i = none := by
        cases hc : s.probes i with
        | none => rfl
        | some c =>
          obtain ⟨_, _, id', act', h1⟩ := ((h.pc i).mp (by simp [hc])).alone h.reach
          rw [ht] at h1; cases h1
      refine ⟨.step _ h.reach hw, ?_, ?_, ?_, ?_, ?_, h.seen⟩
      · intro j
        simp only [hlog, probeCommands]
        by_cases hj : j = i
        · subst hj; simp [set_self, h.cmds j, hnone, Probe.about]
        · have : ¬ i = j := fun h => hj h.symm
          simp [set_ne _ _ hj, this, h.cmds j]
      · simp only [hlog, Pizauth.verdicts]; exact h.verdicts
      · intro j
        simp only [hpc j]
        by_cases hj : j = i
        · subst hj; simp [set_self]
        · rw [set_ne _ _ hj, h.pc j]; simp [hj]
      · intro j c' hj
        dsimp only at hj
        by_cases he : j = i
        · subst he; rw [set_self] at hj; cases hj; simp [hnow]
        · rw [set_ne _ _ he] at hj; simp only [hnow]; exact h.since j c' hj
      · intro j c' hj
        dsimp only at hj
        by_cases he : j = i
        · subst he; rw [set_self] at hj; cases hj; exact ⟨fails, rfl⟩
        · rw [set_ne _ _ he] at hj; exact h.proc j c' hj
    · cases hs
  | exit i code =>
    simp only [Probing.step] at hs
    split at hs
    · rename_i c hc
      split at hs
      · cases hs
        have key : ∀ j, ((set s.probes i (some { c with exit := some code })) j).toList.map Probe.about =
            (s.probes j).toList.map Probe.about ∧
            ((set s.probes i (some { c with exit := some code })) j).isSome = (s.probes j).isSome := by
          intro j
          by_cases he : j = i
          · subst he; simp [set_self, hc, Probe.about]
          · simp [set_ne _ _ he]
        refine ⟨h.reach, fun j => ?_, h.verdicts, fun j => ?_, ?_, ?_, h.seen⟩
        · rw [h.cmds j, (key j).1]
        · rw [← h.pc j, (key j).2]
        · intro j c' hj
          dsimp only at hj
          by_cases he : j = i
          · subst he; rw [set_self] at hj; cases hj; exact h.since j c hc
          · rw [set_ne _ _ he] at hj; exact h.since j c' hj
        · intro j c' hj
          dsimp only at hj
          by_cases he : j = i
          · subst he; rw [set_self] at hj; cases hj; exact h.proc j c hc
          · rw [set_ne _ _ he] at hj; exact h.proc j c' hj
      · cases hs
    · cases hs
  | reap i =>
    simp only [Probing.step] at hs
    split at hs
    · rename_i c hc
      split at hs
      · rename_i hp
        exact h.close hc hs nofun (by simp [hp]) nofun
      · rename_i p code hp hx
        exact h.close hc hs nofun (by simp [hp]) (fun code' hcode => by cases hcode; exact hx)
      · cases hs
    · cases hs
  | kill i =>
    simp only [Probing.step] at hs
    split at hs
    · rename_i c hc
      split at hs
      · rename_i p hp
        split at hs
        · rename_i ht
          exact h.close hc hs (fun _ => ht) (by simp [hp]) nofun
        · cases hs
      · cases hs
    · cases hs
  | waitError i =>
    simp only [Probing.step] at hs
    split at hs
    · rename_i c hc
      split at hs
      · rename_i p hp
        exact h.close hc hs nofun (by simp [hp]) nofun
      · cases hs
    · cases hs

theorem Reach.inv {s : Probing} (h : Probing.Reach E shell s) : s.Inv E shell := by
  induction h with
  | init hi =>
    refine ⟨.init hi, ?_, ?_, ?_, by simp, by simp, by simp⟩
    · intro i; simp [hi.log, probeCommands]
    · simp [hi.log, Pizauth.verdicts]
    · intro i; simp [Waiting, hi.threads]
  | step a _ hs ih => exact ih.step hs

/-- What happens in the server. -/
def does (s : Probing) : Act → Option Action
  | .world a => some a
  | .start i _ => some (.run i {})
  | .exit _ _ => none
  | .reap i => some (.run i { cmdOk := match s.probes i with
      | some ⟨_, _, _, some _, some code⟩ => (ProbeEnd.exited code).ok
      | _ => false })
  | .kill i | .waitError i => some (.run i { cmdOk := false })

theorem does_thread {s : Probing} {a : Act} {i : Nat} :
    a.thread = some i ↔ ∃ inp, s.does a = some (.run i inp) := by
  cases a with
  | world a => cases a <;> simp [does, Act.thread]
  | _ => simp [does, Act.thread]

theorem close_world {s s' : Probing} {i : Nat} {c : Probe} {how : ProbeEnd} (hs : s.close E i c how = some s') :
    s.world.step E (.run i { cmdOk := how.ok }) = some s'.world := by
  unfold Probing.close at hs
  obtain ⟨w, hw, rfl⟩ := Option.map_eq_some_iff.mp hs
  exact hw

theorem step_world {s s' : Probing} {a : Act} (hs : s.step E shell a = some s') :
    (∃ x, s.does a = some x ∧ s.world.step E x = some s'.world) ∨ (s.does a = none ∧ s'.world = s.world) := by
  cases a with
  | world a =>
    simp only [Probing.step] at hs
    split at hs
    · cases hs
    · obtain ⟨w, hw, rfl⟩ := Option.map_eq_some_iff.mp hs
      exact .inl ⟨a, rfl, hw⟩
  | start i fails =>
    simp only [Probing.step] at hs
    split at hs
    · obtain ⟨w, hw, rfl⟩ := Option.map_eq_some_iff.mp hs
      exact .inl ⟨_, rfl, hw⟩
    · cases hs
  | exit i code =>
    simp only [Probing.step] at hs
    split at hs
    · split at hs
      · cases hs; exact .inr ⟨rfl, rfl⟩
      · cases hs
    · cases hs
  | reap i =>
    simp only [Probing.step] at hs
    split at hs
    · rename_i c hc
      obtain ⟨cmd, act, since, proc, exit⟩ := c
      split at hs
      · rename_i hp
        cases hp
        exact .inl ⟨_, by simp only [does, hc]; rfl, close_world hs⟩
      · rename_i p code hp hx
        cases hp; cases hx
        exact .inl ⟨_, by simp only [does, hc], close_world hs⟩
      · cases hs
    · cases hs
  | kill i =>
    simp only [Probing.step] at hs
    split at hs
    · split at hs
      · split at hs
        · exact .inl ⟨_, rfl, close_world hs⟩
        · cases hs
      · cases hs
    · cases hs
  | waitError i =>
    simp only [Probing.step] at hs
    split at hs
    · split at hs
      · exact .inl ⟨_, rfl, close_world hs⟩
      · cases hs
    · cases hs

theorem close_probes {s s' : Probing} {i j : Nat} {c : Probe} {how : ProbeEnd} (hs : s.close E j c how = some s') (hj : j ≠ i) :
    s'.probes i = s.probes i := by
  unfold Probing.close at hs
  obtain ⟨w, hw, rfl⟩ := Option.map_eq_some_iff.mp hs
  exact set_ne _ _ fun h => hj h.symm

/-- As long as a thread waits, it waits for the same command. -/
theorem step_child {s s' : Probing} {a : Act} {i : Nat} {c : Probe} (hs : s.step E shell a = some s')
    (ha : a.thread ≠ some i) (hc : s.probes i = some c) : ∃ c', s'.probes i = some c' ∧ c'.since = c.since := by
  cases a with
  | world a =>
    simp only [Probing.step] at hs
    split at hs
    · cases hs
    · obtain ⟨w, hw, rfl⟩ := Option.map_eq_some_iff.mp hs
      exact ⟨c, hc, rfl⟩
  | start j fails =>
    simp only [Probing.step] at hs
    split at hs
    · obtain ⟨w, hw, rfl⟩ := Option.map_eq_some_iff.mp hs
      refine ⟨c, ?_, rfl⟩
      rw [← hc]
      exact set_ne _ _ fun h => ha (by rw [h]; rfl)
    · cases hs
  | exit j code =>
    simp only [Probing.step] at hs
    split at hs
    · rename_i c1 hc1
      split at hs
      · cases hs
        by_cases hj : i = j
        · subst hj
          rw [hc] at hc1
          cases hc1
          exact ⟨_, set_self _ _ _, rfl⟩
        · exact ⟨c, by rw [← hc]; exact set_ne _ _ hj, rfl⟩
      · cases hs
    · cases hs
  | reap j =>
    have hj : j ≠ i := fun h => ha (by rw [h]; rfl)
    simp only [Probing.step] at hs
    split at hs
    · split at hs
      · exact ⟨c, (close_probes hs hj).trans hc, rfl⟩
      · exact ⟨c, (close_probes hs hj).trans hc, rfl⟩
      · cases hs
    · cases hs
  | kill j =>
    have hj : j ≠ i := fun h => ha (by rw [h]; rfl)
    simp only [Probing.step] at hs
    split at hs
    · split at hs
      · split at hs
        · exact ⟨c, (close_probes hs hj).trans hc, rfl⟩
        · cases hs
      · cases hs
    · cases hs
  | waitError j =>
    have hj : j ≠ i := fun h => ha (by rw [h]; rfl)
    simp only [Probing.step] at hs
    split at hs
    · split at hs
      · exact ⟨c, (close_probes hs hj).trans hc, rfl⟩
      · cases hs
    · cases hs

namespace Run

variable (r : Run E shell)

theorem reach (n : Nat) : Probing.Reach E shell (r.state n) := by
  induction n with
  | zero => exact r.start
  | succ n ih =>
    have h := r.next n
    split at h
    · exact .step _ ih h
    · rw [h]; exact ih

/-- The execution of the server. -/
def toRun : Pizauth.Run E where
  world n := (r.state n).world
  action n := (r.act n).bind (r.state n).does
  start := r.start.inv.reach
  next n := by
    have h := r.next n
    cases ha : r.act n with
    | none => rw [ha] at h; simp only [Option.bind_none]; rw [h]
    | some a =>
      rw [ha] at h
      rcases step_world h with ⟨x, hx, hw⟩ | ⟨hx, hw⟩
      · simp only [Option.bind_some, hx]; exact hw
      · simp only [Option.bind_some, hx]; exact hw

theorem thread_action {n i : Nat} :
    (r.act n).bind Act.thread = some i ↔ ∃ inp, r.toRun.action n = some (.run i inp) := by
  show _ ↔ ∃ inp, (r.act n).bind (r.state n).does = some (.run i inp)
  cases r.act n with
  | none => simp
  | some a => exact does_thread

theorem child_keep {n i : Nat} {c : Probe} (ha : (r.act n).bind Act.thread ≠ some i) (hc : (r.state n).probes i = some c) :
    ∃ c', (r.state (n + 1)).probes i = some c' ∧ c'.since = c.since := by
  have h := r.next n
  split at h
  · rename_i a he
    refine step_child h (fun hd => ha ?_) hc
    rw [he]; exact hd
  · rw [h]; exact ⟨c, hc, rfl⟩

/-- A thread goes on after three minutes, whatever its command does. -/
theorem Turns.command {δ T : Nat} (h : r.Turns δ T) (hclock : ∀ n, r.now (n + 1) ≤ r.now n + (δ : Int)) {n i : Nat}
    (hp : Waiting (r.state n).world i) :
    ∃ m, n ≤ m ∧ r.now m ≤ r.now n + (180000000000 + 2 * (δ : Int)) ∧ (r.act m).bind Act.thread = some i := by
  refine Classical.byContradiction fun hno => ?_
  have hno : ∀ m, n ≤ m → r.now m ≤ r.now n + (180000000000 + 2 * (δ : Int)) → (r.act m).bind Act.thread ≠ some i :=
    fun m h1 h2 h3 => hno ⟨m, h1, h2, h3⟩
  obtain ⟨c, hc⟩ := Option.isSome_iff_exists.mp (((r.reach n).inv.pc i).mpr hp)
  have hsince : c.since ≤ r.now n := (r.reach n).inv.since i c hc
  have hkeep : ∀ m, n ≤ m → r.now m ≤ r.now n + (180000000000 + 2 * (δ : Int)) →
      ∃ c', (r.state m).probes i = some c' ∧ c'.since = c.since := by
    intro m hm
    induction hm with
    | refl => exact fun _ => ⟨c, hc, rfl⟩
    | @step m hm ih =>
      intro hb
      have hmono : r.now m ≤ r.now (m + 1) := r.toRun.now_le_succ m
      obtain ⟨c', h1, h2⟩ := ih (Int.le_trans hmono hb)
      obtain ⟨c'', h3, h4⟩ := r.child_keep (hno m hm (Int.le_trans hmono hb)) h1
      exact ⟨c'', h3, h4.trans h2⟩
  obtain ⟨k, hnk, hk⟩ := h.time n i (by rw [hc]; simp)
  have hk : r.now n + 180000000000 ≤ r.now k := by
    rcases hk with hk | hk
    · exact hk
    · refine Classical.byContradiction fun hlt => ?_
      obtain ⟨c', h1, _⟩ := hkeep k hnk (by omega)
      rw [hk] at h1
      cases h1
  obtain ⟨k', hk', hle, hfirst⟩ := Pizauth.Run.first (n := n) (P := fun m => r.now n + 180000000000 ≤ r.now m) ⟨k, hnk, hk⟩
  have hb : r.now k' ≤ r.now n + (180000000000 + (δ : Int)) := by
    by_cases he : k' = n
    · subst he; omega
    · have h1 := hfirst (k' - 1) (by omega) (by omega)
      have h2 := hclock (k' - 1)
      rw [show k' - 1 + 1 = k' by omega] at h2
      omega
  obtain ⟨m, hm, hmb, ha⟩ := h.over k' i fun m hm hmb => by
    obtain ⟨c', h1, h2⟩ := hkeep m (by omega) (by omega)
    have : r.now k' ≤ r.now m := r.toRun.now_mono hm
    have hle : r.now n + 180000000000 ≤ r.now k' := hle
    refine ⟨c', h1, .inr (.inr ?_)⟩
    rw [h2]
    show c.since + 180000000000 ≤ r.now m
    omega
  exact hno m (by omega) (by omega) ha

theorem Turns.timely {δ T : Nat} (h : r.Turns δ T) (hf : r.toRun.Prompt δ) :
    r.toRun.Timely δ T (180000000000 + 2 * δ) where
  prompt := hf
  outside n i op rest ht hw := by
    cases hp : op.probes with
    | false =>
      obtain ⟨m, h1, h2, h3⟩ := h.servers n i op rest ht hw hp
      refine ⟨m, h1, ?_, r.thread_action.mp h3⟩
      cases op <;> simp only [Op.waits, Op.probes, Bool.false_eq_true, Bool.true_eq_false] at hw hp <;> exact h2
    | true =>
      cases op <;> simp only [Op.probes, Bool.false_eq_true] at hp
      rename_i id act
      obtain ⟨m, h1, h2, h3⟩ := h.command r hf.clock (n := n) (i := i)
        ⟨id, act, by rw [show (r.state n).world.threads i = _ from ht]; simp⟩
      refine ⟨m, h1, ?_, r.thread_action.mp h3⟩
      show r.now m ≤ r.now n + (((180000000000 + 2 * δ : Nat)) : Int)
      omega

end Run
end Probing
end Pizauth

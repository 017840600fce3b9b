import Verif.Spec.Wall
import Verif.Proof.Leak
import Verif.Proof.Shown

/-!
# Adjusting the system's date
-/

namespace Pizauth
open LockedState

section
variable {E : Env} {S : Static} {now : Instant} {wall wall' : SysTime} {ls : LockedState} {tid : Nat} {op : Op} {inp : Input}

/-- Only three requests look at the date. -/
theorem exec_wall (h : ∀ buf, op = .unix buf → parseReq buf ≠ .dump ∧ (∀ d, parseReq buf ≠ .restore d) ∧ parseReq buf ≠ .status) :
    exec E S now wall ls tid op inp = exec E S now wall' ls tid op inp := by
  cases op with
  | unix buf =>
    obtain ⟨h1, h2, h3⟩ := h buf rfl
    simp only [exec]
    generalize parseReq buf = r at *
    cases r <;> first | rfl | exact absurd rfl h1 | exact absurd rfl h3 | exact absurd rfl (h2 _)
  | _ => rfl

theorem instantFmt_some (h : ∀ t, (E.rfc2822 t).isSome = true) (i : Instant) : ∃ s, instantFmt E now wall i = some s := by
  unfold instantFmt
  split <;> split <;> first | exact ⟨_, rfl⟩ | skip
  all_goals
    split
    · exact Option.isSome_iff_exists.mp (h _)
    · exact ⟨_, rfl⟩

theorem statusText_some (h : ∀ t, (E.rfc2822 t).isSome = true) (ts : TokenState) : ∃ s, statusText E now wall ts = some s := by
  unfold statusText
  split
  · exact ⟨_, rfl⟩
  · split
    · obtain ⟨s, hs⟩ := instantFmt_some (now := now) (wall := wall) h _
      rw [hs]; exact ⟨_, rfl⟩
    · exact ⟨_, rfl⟩
  · rename_i a
    split
    · obtain ⟨s, hs⟩ := instantFmt_some (now := now) (wall := wall) h a.obtained
      obtain ⟨t, ht⟩ := instantFmt_some (now := now) (wall := wall) h a.expiry
      rw [hs, ht]; exact ⟨_, rfl⟩
    · split
      · obtain ⟨s, hs⟩ := instantFmt_some (now := now) (wall := wall) h _
        rw [hs]; exact ⟨_, rfl⟩
      · exact ⟨_, rfl⟩

theorem optAll_isSome {α β : Type} {f g : α → Option β} (h : ∀ a, (f a).isSome = (g a).isSome) :
    ∀ l : List α, (optAll f l).isSome = (optAll g l).isSome
  | [] => rfl
  | a :: l => by
    have h1 := h a
    have h2 := optAll_isSome h l
    clear h
    simp only [optAll]
    revert h1 h2
    cases f a <;> cases g a <;> cases optAll f l <;> cases optAll g l <;> simp

theorem statusReply_some (h : ∀ t, (E.rfc2822 t).isSome = true) :
    (statusReply E now wall ls).isSome = (statusReply E now wall' ls).isSome := by
  unfold statusReply
  simp only [Option.isSome_map]
  refine optAll_isSome (fun id => ?_) _
  unfold statusLine
  split
  · rename_i act ts _ _
    obtain ⟨s, hs⟩ := statusText_some (now := now) (wall := wall) h ts
    obtain ⟨t, ht⟩ := statusText_some (now := now) (wall := wall') h ts
    rw [hs, ht]; rfl
  · rfl

end

/-- The main thread is about to answer `status`, in different ways. -/
def Differ (w : World) (th : Nat → List Op) : Prop :=
  ∃ t buf b b', lastRequest w.log = some (t, buf) ∧ parseReq buf = .status ∧ w.threads 0 = [.reply b, .close] ∧
    th 0 = [.reply b', .close]

/-- The same world at another date. -/
inductive Twin (w : World) : World → Prop
  | mk {x : SysTime} {th : Nat → List Op} {lg : Log} {p : Proc} : (∀ i, i ≠ 0 → th i = w.threads i) →
      (th 0 = w.threads 0 ∨ Differ w th) → SameButStatus w.log lg → p = w.proc →
      Twin w { w with wall := x, threads := th, log := lg, proc := p }

/-- Clients ask for the status only if all dates can be written. -/
def Dates (E : Env) (w : World) : Prop :=
  (∀ t buf, (t, .request buf) ∈ w.log → parseReq buf ≠ .status) ∨ ∀ t, (E.rfc2822 t).isSome = true

theorem SameButStatus.append : ∀ (os : List (Instant × Obs)) {l l' : Log}, SameButStatus l l' → SameButStatus (os ++ l) (os ++ l')
  | [], _, _, h => h
  | o :: os, _, _, h => .both o (SameButStatus.append os h)

variable {E : Env}

theorem setThread_twin {f g : Nat → List Op} {j : Nat} (h : ∀ i, i ≠ 0 → g i = f i) (l : List Op) :
    ∀ i, i ≠ 0 → setThread g j l i = setThread f j l i := by
  intro i hi
  unfold setThread
  split
  · rfl
  · exact h i hi

theorem spawnAll_twin : ∀ (ops : List Op) {f g : Nat → List Op} {n : Nat}, (∀ i, i ≠ 0 → g i = f i) →
    ∀ i, i ≠ 0 → spawnAll g n ops i = spawnAll f n ops i
  | [], _, _, _, h => h
  | op :: r, _, _, n, h => spawnAll_twin r (setThread_twin (j := n) h [op])

/-- What the main thread will answer is not affected by what others do. -/
theorem Differ.keep {w w' : World} {th th' : Nat → List Op} (h : Differ w th) (h1 : w'.threads 0 = w.threads 0) (h2 : th' 0 = th 0)
    (h3 : lastRequest w'.log = lastRequest w.log) : Differ w' th' := by
  obtain ⟨t, buf, b, b', a1, a2, a3, a4⟩ := h
  exact ⟨t, buf, b, b', by rw [h3, a1], a2, by rw [h1, a3], by rw [h2, a4]⟩

theorem Differ.ne {w : World} {th : Nat → List Op} (h : Differ w th) : w.threads 0 ≠ [] := by
  obtain ⟨_, _, _, _, _, _, h, _⟩ := h
  rw [h]; exact List.cons_ne_nil _ _

theorem Twin.apply {w : World} {x : SysTime} {th : Nat → List Op} {lg : Log} {p : Proc} (hp : p = w.proc) {tid : Nat} {rest : List Op}
    {f : Eff} (n' : List Op) (o' : List Obs)
    (h1 : ∀ i, i ≠ 0 → spawnAll (setThread th tid (n' ++ rest)) w.nextTid f.spawn i = (w.apply tid rest f).threads i)
    (h2 : spawnAll (setThread th tid (n' ++ rest)) w.nextTid f.spawn 0 = (w.apply tid rest f).threads 0 ∨
      Differ (w.apply tid rest f) (spawnAll (setThread th tid (n' ++ rest)) w.nextTid f.spawn))
    (h3 : SameButStatus (w.apply tid rest f).log ((o'.map fun o => (w.now, o)).reverse ++ lg)) :
    Twin (w.apply tid rest f)
      (({ w with wall := x, threads := th, log := lg, proc := p } : World).apply tid rest { f with next := n', obs := o' }) := by
  subst hp
  exact Twin.mk (w := w.apply tid rest f) (x := x) (p := (w.apply tid rest f).proc) h1 h2 h3 rfl

/-- One step, at two dates. -/
theorem Twin.step {w v w' : World} (h : Twin w v) (hr : Reach E w) (hn : NoDumps w) (hd : Dates E w) {a : Action}
    (ha : ∀ t, a ≠ .setWall t) (hs : w.step E a = some w') : ∃ v', v.step E a = some v' ∧ Twin w' v' := by
  have h0 := hr.inv0
  have hR := (stepR_of_step h0.wf hs).2
  cases h with
  | @mk x th lg p ht hm hl hpp =>
  subst hpp
  cases hp : w.proc with
  | aborted => simp only [World.step, hp] at hs; cases hs
  | terminated => simp only [World.step, hp] at hs; cases hs
  | running =>
    simp only [World.step, hp] at hs ⊢
    cases a with
    | tick d => cases hs; exact ⟨_, rfl, .mk ht (hm.imp id fun h => h.keep rfl rfl rfl) hl (by first | rfl | exact hp.symm)⟩
    | setWall t => exact absurd rfl (ha t)
    | connect buf =>
      simp only at hs ⊢
      split at hs
      · rename_i hemp
        cases hs
        have hw : w.threads 0 = [] := by simpa using hemp
        have hth : th 0 = [] := by
          rcases hm with hm | hm
          · rw [hm, hw]
          · exact absurd hw hm.ne
        refine ⟨_, if_pos (by rw [hth]; rfl), ?_⟩
        exact .mk (setThread_twin ht _) (.inl rfl) (.both _ hl) (by first | rfl | exact hp.symm)
      · cases hs
    | http buf sec =>
      simp only at hs ⊢
      cases sec <;> simp only [Bool.false_eq_true, if_true, if_false] at hs ⊢
      all_goals
        split at hs
        · rename_i hport
          cases hs
          refine ⟨_, if_pos hport, ?_⟩
          refine .mk (setThread_twin ht _) ?_ (.both _ hl) (by first | rfl | exact hp.symm)
          have hne : (0 : Nat) ≠ w.nextTid := by have := h0.tid0; omega
          rcases hm with hm | hm
          · left
            simp only [World.observe]
            rw [setThread_ne _ hne, setThread_ne _ hne, hm]
          · right
            exact hm.keep (setThread_ne _ hne _) (setThread_ne _ hne _) rfl
        · cases hs
    | run tid inp =>
      simp only at hs ⊢
      by_cases h00 : tid = 0
      · subst h00
        rcases hm with hm | hm
        · rw [hm]
          cases hop : w.threads 0 with
          | nil => rw [hop] at hs; cases hs
          | cons op rest =>
            rw [hop] at hs
            simp only at hs ⊢
            by_cases hst : ∃ buf, op = .unix buf ∧ parseReq buf = .status
            · obtain ⟨buf, rfl, hq⟩ := hst
              obtain ⟨t, hlast⟩ := hr.unix_request (b := buf) (by rw [hop]; exact List.mem_cons_self)
              have hrest : rest = [.close] := by
                have := ((Reach.shape w hr).unix (i := 0) (buf := buf) (by rw [hop]; exact List.mem_cons_self)).2
                rw [hop] at this; cases this; rfl
              subst hrest
              have hdates : ∀ t, (E.rfc2822 t).isSome = true := by
                rcases hd with hd | hd
                · exact absurd hq (hd t buf (lastRequest_mem hlast))
                · exact hd
              have hsome := statusReply_some (now := w.now) (wall := w.wall) (wall' := x) (ls := w.ls) hdates
              simp only [exec, hq, execUnix] at hs ⊢
              cases h1 : statusReply E w.now w.wall w.ls with
              | none =>
                rw [h1] at hs hsome
                cases h2 : statusReply E w.now x w.ls with
                | some b => rw [h2] at hsome; cases hsome
                | none =>
                  cases hs
                  exact ⟨_, rfl, .mk ht (.inl hm) hl (by first | rfl | exact hp.symm)⟩
              | some b =>
                rw [h1] at hs hsome
                cases h2 : statusReply E w.now x w.ls with
                | none => rw [h2] at hsome; cases hsome
                | some b' =>
                  cases hs
                  refine ⟨_, rfl, Twin.apply hp.symm [.reply b'] []
                    (fun i hi => (setThread_ne _ hi _).trans ((ht i hi).trans (setThread_ne _ hi _).symm)) (.inr ⟨t, buf, b, b', hlast, hq, ?_, ?_⟩) hl⟩
                  · simp [World.apply, spawnAll, setThread]
                  · simp [spawnAll, setThread]
            · have hex := exec_wall (E := E) (S := w.st) (now := w.now) (wall := w.wall) (wall' := x) (ls := w.ls) (tid := 0)
                (op := op) (inp := inp) (by
                  rintro buf rfl
                  obtain ⟨t, hlast⟩ := hr.unix_request (b := buf) (by rw [hop]; exact List.mem_cons_self)
                  have := hn t buf (lastRequest_mem hlast)
                  exact ⟨this.1, this.2, fun hq => hst ⟨buf, rfl, hq⟩⟩)
              rw [hex] at hs
              cases hx : exec E w.st w.now x w.ls 0 op inp with
              | panic => rw [hx] at hs; cases hs; exact ⟨_, rfl, .mk ht (.inl hm) hl (by first | rfl | exact hp.symm)⟩
              | disabled => rw [hx] at hs; cases hs
              | ok f =>
                rw [hx] at hs; cases hs
                refine ⟨_, rfl, Twin.apply hp.symm f.next f.obs (spawnAll_twin _ (setThread_twin ht _)) (.inl ?_) (hl.append _)⟩
                simp only [World.apply]
                rw [spawnAll_lt _ _ _ _ h0.tid0, spawnAll_lt _ _ _ _ h0.tid0, setThread_same, setThread_same]
        · obtain ⟨t, buf, b, b', hlast, hq, hw, hv⟩ := hm
          rw [hw] at hs
          rw [hv]
          cases hs
          refine ⟨_, rfl, Twin.apply hp.symm [] [.reply b'] (setThread_twin ht _) (.inl ?_) (.status _ _ _ hl hlast hq)⟩
          simp [World.apply, spawnAll, setThread]
      · rw [ht tid h00]
        cases hop : w.threads tid with
        | nil => rw [hop] at hs; cases hs
        | cons op rest =>
          rw [hop] at hs
          simp only at hs ⊢
          have hex := exec_wall (E := E) (S := w.st) (now := w.now) (wall := w.wall) (wall' := x) (ls := w.ls) (tid := tid)
            (op := op) (inp := inp) (by
              rintro buf rfl
              exact absurd ((Reach.shape w hr).unix (i := tid) (buf := buf) (by rw [hop]; exact List.mem_cons_self)).1 h00)
          rw [hex] at hs
          cases hx : exec E w.st w.now x w.ls tid op inp with
          | panic =>
            rw [hx] at hs; cases hs
            exact ⟨_, rfl, .mk ht (hm.imp id fun h => h.keep rfl rfl rfl) hl (by first | rfl | exact hp.symm)⟩
          | disabled => rw [hx] at hs; cases hs
          | ok f =>
            rw [hx] at hs; cases hs
            refine ⟨_, rfl, Twin.apply hp.symm f.next f.obs (spawnAll_twin _ (setThread_twin ht _)) ?_ (hl.append _)⟩
            have e1 : (w.apply tid rest f).threads 0 = w.threads 0 := apply_threads_other h0.tid0 (Ne.symm h00) _ _
            have e2 : spawnAll (setThread th tid (f.next ++ rest)) w.nextTid f.spawn 0 = th 0 := by
              rw [spawnAll_lt _ _ _ _ h0.tid0, setThread_ne _ (Ne.symm h00)]
            rcases hm with hm | hm
            · left
              exact e2.trans (hm.trans e1.symm)
            · right
              exact hm.keep e1 e2 (hR.lastRequest hm.ne)
    | refresher =>
      simp only [World.stepRefresher] at hs ⊢
      cases hpc : w.refPc with
      | compute =>
        rw [hpc] at hs
        simp only at hs ⊢
        cases ho : optAll (refreshAt w.ls w.now) w.ls.actIds with
        | none => rw [ho] at hs; cases hs; exact ⟨_, rfl, .mk ht (hm.imp id fun h => h.keep rfl rfl rfl) hl (by first | rfl | exact hp.symm)⟩
        | some ts => rw [ho] at hs; cases hs; exact ⟨_, rfl, .mk ht (hm.imp id fun h => h.keep rfl rfl rfl) hl (by first | rfl | exact hp.symm)⟩
      | wait d =>
        rw [hpc] at hs
        simp only at hs ⊢
        split at hs
        · rename_i hover
          cases hs
          exact ⟨_, if_pos hover, .mk ht (hm.imp id fun h => h.keep rfl rfl rfl) hl (by first | rfl | exact hp.symm)⟩
        · cases hs
      | scan =>
        rw [hpc] at hs
        simp only at hs ⊢
        cases ho : dueIds w.ls w.now w.ls.actIds with
        | none => rw [ho] at hs; cases hs; exact ⟨_, rfl, .mk ht (hm.imp id fun h => h.keep rfl rfl rfl) hl (by first | rfl | exact hp.symm)⟩
        | some ids =>
          rw [ho] at hs; cases hs
          refine ⟨_, rfl, .mk (spawnAll_twin _ ht) ?_ hl (by first | rfl | exact hp.symm)⟩
          have e1 : spawnAll w.threads w.nextTid (ids.map Op.rfStart) 0 = w.threads 0 := spawnAll_lt _ _ _ _ h0.tid0
          have e2 : spawnAll th w.nextTid (ids.map Op.rfStart) 0 = th 0 := spawnAll_lt _ _ _ _ h0.tid0
          rcases hm with hm | hm
          · left
            exact e2.trans (hm.trans e1.symm)
          · right
            exact hm.keep e1 e2 rfl
    | notifier =>
      simp only [World.stepNotifier] at hs ⊢
      cases hpc : w.notPc with
      | compute =>
        rw [hpc] at hs
        simp only at hs ⊢
        cases ho : optAll (notifyAt w.ls w.now) w.ls.actIds with
        | none => rw [ho] at hs; cases hs; exact ⟨_, rfl, .mk ht (hm.imp id fun h => h.keep rfl rfl rfl) hl (by first | rfl | exact hp.symm)⟩
        | some ts => rw [ho] at hs; cases hs; exact ⟨_, rfl, .mk ht (hm.imp id fun h => h.keep rfl rfl rfl) hl (by first | rfl | exact hp.symm)⟩
      | wait d =>
        rw [hpc] at hs
        simp only at hs ⊢
        split at hs
        · rename_i hover
          cases hs
          exact ⟨_, if_pos hover, .mk ht (hm.imp id fun h => h.keep rfl rfl rfl) hl (by first | rfl | exact hp.symm)⟩
        · cases hs
      | scan =>
        rw [hpc] at hs
        simp only at hs ⊢
        cases ho : notifyLoop E w.now w.ls.config.authNotifyInterval w.ls.actIds w.ls with
        | none => rw [ho] at hs; cases hs; exact ⟨_, rfl, .mk ht (hm.imp id fun h => h.keep rfl rfl rfl) hl (by first | rfl | exact hp.symm)⟩
        | some p =>
          rw [ho] at hs; cases hs
          exact ⟨_, rfl, .mk ht (hm.imp id fun h => h.keep rfl rfl (hR.lastRequest h.ne)) (hl.append _) (by first | rfl | exact hp.symm)⟩
    | eventer =>
      simp only [World.stepEventer] at hs ⊢
      cases hpc : w.evPc with
      | wait =>
        rw [hpc] at hs
        simp only at hs ⊢
        split at hs
        · rename_i hover
          cases hs
          exact ⟨_, if_pos hover, .mk ht (hm.imp id fun h => h.keep rfl rfl rfl) hl (by first | rfl | exact hp.symm)⟩
        · cases hs
      | drain =>
        rw [hpc] at hs
        simp only at hs ⊢
        cases hq : w.evQueue with
        | nil => rw [hq] at hs; cases hs; exact ⟨_, rfl, .mk ht (hm.imp id fun h => h.keep rfl rfl rfl) hl (by first | rfl | exact hp.symm)⟩
        | cons p r => rw [hq] at hs; cases hs; exact ⟨_, rfl, .mk ht (hm.imp id fun h => h.keep rfl rfl rfl) hl (by first | rfl | exact hp.symm)⟩
      | readCmd act e =>
        rw [hpc] at hs
        simp only at hs ⊢
        cases hq : w.ls.config.tokenEventCmd with
        | none => rw [hq] at hs; cases hs; exact ⟨_, rfl, .mk ht (hm.imp id fun h => h.keep rfl rfl rfl) hl (by first | rfl | exact hp.symm)⟩
        | some cmd =>
          rw [hq] at hs; cases hs
          exact ⟨_, rfl, .mk ht (hm.imp id fun h => h.keep rfl rfl (hR.lastRequest h.ne)) (hl.append _) (by first | rfl | exact hp.symm)⟩
      | running =>
        rw [hpc] at hs
        cases hs
        exact ⟨_, rfl, .mk ht (hm.imp id fun h => h.keep rfl rfl (hR.lastRequest h.ne)) (hl.append _) (by first | rfl | exact hp.symm)⟩

theorem Twin.setWall {w v : World} (h : Twin w v) (t : SysTime) : Twin { w with wall := t } v := by
  cases h with
  | mk ht hm hl hp => exact .mk (w := { w with wall := t }) ht (hm.imp id fun h => h.keep rfl rfl rfl) hl hp

theorem Twin.setWall' {w v : World} (h : Twin w v) (t : SysTime) : Twin w { v with wall := t } := by
  cases h with
  | mk ht hm hl hp => exact .mk ht hm hl hp

theorem Twin.proc {w v : World} (h : Twin w v) : v.proc = w.proc := by
  cases h; assumption

theorem step_setWall {w w' : World} {t : SysTime} (h : w.step E (.setWall t) = some w') : w.proc = .running ∧ w' = { w with wall := t } := by
  unfold World.step at h
  cases hp : w.proc <;> rw [hp] at h <;> cases h
  exact ⟨rfl, rfl⟩

theorem setWall_step {w : World} (t : SysTime) (h : w.proc = .running) : w.step E (.setWall t) = some { w with wall := t } := by
  unfold World.step
  rw [h]

theorem step_running {w w' : World} {a : Action} (h : w.step E a = some w') : w.proc = .running := by
  unfold World.step at h
  cases hp : w.proc <;> rw [hp] at h
  all_goals first | rfl | cases h

/-- Nobody has asked for the status. -/
def NoStatus (w : World) : Prop := ∀ t buf, (t, .request buf) ∈ w.log → parseReq buf ≠ .status

theorem NoStatus.step {w w' : World} {a : Action} (hr : Reach E w) (h : NoStatus w) (ha : ¬ AsksStatus a)
    (hs : w.step E a = some w') : NoStatus w' := by
  intro t buf hm
  obtain ⟨l, hl, hn⟩ := (stepR_of_step hr.inv0.wf hs).2.log_new
  rw [hl] at hm
  rcases List.mem_append.mp hm with hm | hm
  · have hnew := (hn _ hm).2
    by_cases hc : ∃ b, a = .connect b
    · obtain ⟨b, rfl⟩ := hc
      cases hnew
      exact fun hq => ha ⟨_, rfl, hq⟩
    · have := hnew.not_request fun b e => hc ⟨b, e⟩
      cases this
  · exact h t buf hm

theorem NoStatus.run : ∀ (l : List Action) {w w' : World}, Reach E w → NoStatus w → (∀ a ∈ l, ¬ AsksStatus a) →
    w.run E l = some w' → NoStatus w'
  | [], _, _, _, h, _, hr => by cases hr; exact h
  | a :: l, w, w', hr, h, ha, h1 => by
    simp only [World.run] at h1
    cases hs : w.step E a with
    | none => rw [hs] at h1; cases h1
    | some w1 =>
      rw [hs] at h1
      exact NoStatus.run l (.step _ hr hs) (h.step hr (ha _ List.mem_cons_self) hs)
        (fun b hb => ha b (List.mem_cons_of_mem _ hb)) h1

theorem Dates.step {w w' : World} {a : Action} (hr : Reach E w) (h : Dates E w)
    (ha : ¬ AsksStatus a ∨ ∀ t, (E.rfc2822 t).isSome = true) (hs : w.step E a = some w') : Dates E w' := by
  rcases h with h | h
  · rcases ha with ha | ha
    · exact .inl (NoStatus.step hr h ha hs)
    · exact .inr ha
  · exact .inr h

theorem Twin.run {l l' : List Action} (h : SameButDate l l') : ∀ {w v w' : World}, Twin w v → Reach E w → NoDumps w → Dates E w →
    (∀ a ∈ l, ¬ AsksDumpOrRestore a) → (∀ a ∈ l, ¬ AsksStatus a ∨ ∀ t, (E.rfc2822 t).isSome = true) →
    w.run E l = some w' → ∃ v', v.run E l' = some v' ∧ Twin w' v' := by
  induction h with
  | nil =>
    intro w v w' ht _ _ _ _ _ h
    cases h
    exact ⟨v, rfl, ht⟩
  | here t _ ih =>
    intro w v w' ht hr hn hd h1 h2 h
    simp only [World.run] at h
    cases hs : w.step E (.setWall t) with
    | none => rw [hs] at h; cases h
    | some w1 =>
      rw [hs] at h
      have h3 := hn.step hr (h1 _ List.mem_cons_self) hs
      have h4 := hd.step hr (h2 _ List.mem_cons_self) hs
      obtain ⟨_, rfl⟩ := step_setWall hs
      exact ih (ht.setWall t) (.step _ hr hs) h3 h4 (fun a ha => h1 a (List.mem_cons_of_mem _ ha))
        (fun a ha => h2 a (List.mem_cons_of_mem _ ha)) h
  | @there t l l' hne _ ih =>
    intro w v w' ht hr hn hd h1 h2 h
    obtain ⟨v', hv, ht'⟩ := ih (ht.setWall' t) hr hn hd h1 h2 h
    refine ⟨v', ?_, ht'⟩
    simp only [World.run]
    rw [setWall_step t]
    · exact hv
    · rw [ht.proc]
      cases l with
      | nil => exact absurd rfl hne
      | cons a l =>
        simp only [World.run] at h
        cases hs : w.step E a with
        | none => rw [hs] at h; cases h
        | some w1 => exact step_running hs
  | both a _ ih =>
    intro w v w' ht hr hn hd h1 h2 h
    simp only [World.run] at h
    cases hs : w.step E a with
    | none => rw [hs] at h; cases h
    | some w1 =>
      rw [hs] at h
      have h3 := hn.step hr (h1 _ List.mem_cons_self) hs
      have h4 := hd.step hr (h2 _ List.mem_cons_self) hs
      have : ∃ v1, v.step E a = some v1 ∧ Twin w1 v1 := by
        by_cases hw : ∃ t, a = .setWall t
        · obtain ⟨t, rfl⟩ := hw
          obtain ⟨hp, rfl⟩ := step_setWall hs
          exact ⟨_, setWall_step t (by rw [ht.proc, hp]), (ht.setWall t).setWall' t⟩
        · exact ht.step hr hn hd (fun t e => hw ⟨t, e⟩) hs
      obtain ⟨v1, hv1, ht1⟩ := this
      obtain ⟨v', hv', ht'⟩ := ih ht1 (.step _ hr hs) h3 h4 (fun a ha => h1 a (List.mem_cons_of_mem _ ha))
        (fun a ha => h2 a (List.mem_cons_of_mem _ ha)) h
      refine ⟨v', ?_, ht'⟩
      simp only [World.run]
      rw [hv1]
      exact hv'

theorem LockedState.Restorable.wall {ls : LockedState} {now : Instant} {x y : SysTime} {d : Dump} {e : Entry} {ts : TokenState}
    (h : ls.Restorable now x d e ts) : ∃ t t', ts = .active t ∧ SameButTimes t t' ∧ ls.Restorable now y d e (.active t') := by
  obtain ⟨a, tok, o, ex, rt, h1, h2, h3, rfl⟩ := h
  exact ⟨_, _, rfl, ⟨_, _, rfl⟩, a, tok, o, ex, rt, h1, h2, h3, rfl⟩

end Pizauth

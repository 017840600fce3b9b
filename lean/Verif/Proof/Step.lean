import Verif.Model.World
import Verif.Proof.Exec

/-!
# What one step can do, as a relation
-/

namespace Pizauth
open LockedState

/-! ## The refresher's and notifier's computations -/

/-- When is the token of an entry due for a refresh? -/
def refreshDue (c : Config) (a : Account) (now : Instant) (ts : TokenState) : Option Instant :=
  match ts with
  | .active t =>
    if t.ongoing then none
    else
      let normal : Instant :=
        let e := (checkedSub t.expiry (a.effRefreshBeforeExpiry c)).getD (min now t.expiry)
        match checkedAdd t.obtained (a.effRefreshAtLeast c) with
        | some t => min e t
        | none => e
      match t.lastAttempt with
      | some lra =>
        match checkedAdd lra (a.effRefreshRetry c) with
        | some t => some t
        | none => some normal
      | none => some normal
  | _ => none

/-- The same for an entry of the state. -/
def refreshDueE (ls : LockedState) (now : Instant) (e : Entry) : Option Instant :=
  match ls.config.get? e.name with
  | some a => refreshDue ls.config a now e.ts
  | none => none

/-- When is the user to be reminded of a pending authorisation? -/
def notifyDueE (ls : LockedState) (now : Instant) (e : Entry) : Option Instant :=
  match e.ts with
  | .pending p =>
    match p.lastNotification with
    | none => some now
    | some t => checkedAdd t ls.config.authNotifyInterval
  | _ => none

section
variable {ls : LockedState}

theorem WF.refreshAt (h : ls.WF) {e : Entry} (he : e ∈ ls.details) (now : Instant) :
    refreshAt ls now e.id = some (refreshDueE ls now e) := by
  obtain ⟨a, ha⟩ := h.has he
  unfold Pizauth.refreshAt refreshDueE refreshDue
  rw [h.tokenstate he, h.account ha, ha.2]
  cases e.ts with
  | empty => rfl
  | pending p => rfl
  | active t =>
    simp only
    cases t.ongoing with
    | true => rfl
    | false =>
      cases t.lastAttempt with
      | none => rfl
      | some lra =>
        simp only [Bool.false_eq_true, if_false]
        cases checkedAdd lra (a.effRefreshRetry ls.config) <;> rfl

theorem WF.notifyAt (h : ls.WF) {e : Entry} (he : e ∈ ls.details) (now : Instant) :
    notifyAt ls now e.id = some (notifyDueE ls now e) := by
  unfold Pizauth.notifyAt notifyDueE
  rw [h.tokenstate he]
  cases e.ts with
  | empty => rfl
  | pending p => simp only; cases p.lastNotification <;> rfl
  | active t => rfl

theorem optAll_map {α β γ : Type} (f : α → Option β) (g : γ → α) (k : γ → β) (l : List γ)
    (h : ∀ x ∈ l, f (g x) = some (k x)) : optAll f (l.map g) = some (l.map k) := by
  induction l with
  | nil => rfl
  | cons x r ih =>
    simp only [List.map_cons, optAll, h x (by simp), ih fun y hy => h y (List.mem_cons_of_mem _ hy)]

theorem dueIds_map (h : ls.WF) (now : Instant) (l : List Entry) (hl : ∀ e ∈ l, e ∈ ls.details) :
    dueIds ls now (l.map Entry.id) =
      some ((l.filter fun e => (refreshDueE ls now e).any (fun t => decide (t ≤ now))).map Entry.id) := by
  induction l with
  | nil => rfl
  | cons e r ih =>
    simp only [List.map_cons, dueIds, WF.refreshAt h (hl e (by simp)),
      ih fun e he => hl e (List.mem_cons_of_mem _ he), List.filter_cons]
    cases hd : refreshDueE ls now e with
    | none => simp
    | some t =>
      by_cases ht : t ≤ now <;> simp [ht]

/-- The pending authorisation of an entry about which the user is to be told now. -/
def dueEntry (interval : Dur) (now : Instant) (e : Entry) : Option PendingTok :=
  match e.ts with
  | .pending p => if notifyDue interval now p then some p else none
  | _ => none

theorem dueEntry_some {interval : Dur} {now : Instant} {e : Entry} {p : PendingTok} :
    dueEntry interval now e = some p ↔ e.ts = .pending p ∧ notifyDue interval now p = true := by
  unfold dueEntry
  cases e.ts with
  | empty => simp
  | active t => simp
  | pending q =>
    simp only [TokenState.pending.injEq]
    by_cases hq : notifyDue interval now q = true
    · simp only [hq, if_true, Option.some.injEq]
      exact ⟨fun h => ⟨h, h ▸ hq⟩, fun h => h.1⟩
    · simp only [hq, Bool.false_eq_true, if_false]
      exact ⟨fun h => (by cases h), fun ⟨h1, h2⟩ => absurd (h1 ▸ h2) hq⟩

/-- The command the notifier runs for an entry, if any. -/
def authCmdFor (E : Env) (c : Config) (now : Instant) (e : Entry) : List Obs :=
  match dueEntry c.authNotifyInterval now e, c.authNotifyCmd with
  | some p, some cmd => [.authCmd cmd e.name (E.renderUrl p.url)]
  | _, _ => []

/-- What the notifier does to the state. -/
structure NotifyR (now : Instant) (es : List Entry) (ls ls' : LockedState) : Prop where
  wf : ls'.WF
  evolves : Evolves ls ls'
  config : ls'.config = ls.config
  back : ∀ e' ∈ ls'.details,
    (e' ∈ ls.details ∧ (e' ∈ es → dueEntry ls.config.authNotifyInterval now e' = none)) ∨
    (∃ e ∈ es, ∃ p, dueEntry ls.config.authNotifyInterval now e = some p ∧ e'.name = e.name ∧
      e'.ts = .pending { p with lastNotification := some now } ∧ ls.accountCount ≤ e'.id)
  keep : ∀ e ∈ ls.details, (e ∈ es → dueEntry ls.config.authNotifyInterval now e = none) → e ∈ ls'.details
  told : ∀ e ∈ es, ∀ p, dueEntry ls.config.authNotifyInterval now e = some p →
    ∃ e' ∈ ls'.details, e'.name = e.name ∧ e'.ts = .pending { p with lastNotification := some now } ∧
      ls.accountCount ≤ e'.id

theorem notifyLoop_spec (E : Env) (now : Instant) : ∀ (es : List Entry) {ls : LockedState}, ls.WF →
    (∀ e ∈ es, e ∈ ls.details) → (es.map Entry.id).Nodup →
    ∃ ls', notifyLoop E now ls.config.authNotifyInterval (es.map Entry.id) ls =
        some (ls', es.flatMap (authCmdFor E ls.config now)) ∧ NotifyR now es ls ls'
  | [], ls, h, _, _ =>
    ⟨ls, rfl, h, Evolves.refl _, rfl, fun e' he' => Or.inl ⟨he', by simp⟩, fun e he _ => he, by simp⟩
  | e :: r, ls, h, hm, hn => by
    simp only [List.map_cons, List.nodup_cons, List.mem_map, not_exists, not_and] at hn
    have hed := hm e (by simp)
    obtain ⟨a, ha⟩ := h.has hed
    cases hdue : dueEntry ls.config.authNotifyInterval now e with
    | none =>
      obtain ⟨ls', h1, h2⟩ := notifyLoop_spec E now r h (fun e he => hm e (List.mem_cons_of_mem _ he)) hn.2
      refine ⟨ls', ?_, h2.wf, h2.evolves, h2.config, ?_, ?_, ?_⟩
      · simp only [List.map_cons, notifyLoop, h.tokenstate hed, List.flatMap_cons, authCmdFor, hdue,
          List.nil_append]
        unfold dueEntry at hdue
        cases hts : e.ts with
        | empty => simpa using h1
        | active t => simpa using h1
        | pending p =>
          rw [hts] at hdue
          simp only at hdue ⊢
          by_cases hq : notifyDue ls.config.authNotifyInterval now p = true
          · simp [hq] at hdue
          · simp only [hq, Bool.false_eq_true, if_false]; exact h1
      · intro e' he'
        rcases h2.back e' he' with ⟨hd, hnd⟩ | ⟨e0, he0, hr⟩
        · refine Or.inl ⟨hd, fun hin => ?_⟩
          rcases List.mem_cons.mp hin with rfl | hin
          · exact hdue
          · exact hnd hin
        · exact Or.inr ⟨e0, List.mem_cons_of_mem _ he0, hr⟩
      · intro e' he' hnd
        exact h2.keep e' he' fun hin => hnd (List.mem_cons_of_mem _ hin)
      · intro e' he' p hp
        rcases List.mem_cons.mp he' with rfl | he'
        · rw [hdue] at hp; cases hp
        · exact h2.told e' he' p hp
    | some p =>
      obtain ⟨hts, hnd⟩ := dueEntry_some.mp hdue
      have hr : ∀ e' ∈ r, e'.id ≠ e.id := fun e' he' hid => hn.1 e' he' hid
      have hw1 := h.put e.id (.pending { p with lastNotification := some now })
      obtain ⟨ls', h1, h2⟩ := notifyLoop_spec E now r hw1 (fun e' he' =>
        mem_put.mpr (Or.inl ⟨hm e' (List.mem_cons_of_mem _ he'), hr e' he'⟩)) hn.2
      simp only [put_config] at h1
      have hback := h2.back
      have hkeep := h2.keep
      have htold := h2.told
      simp only [put_config, put_count] at hback hkeep htold
      refine ⟨ls', ?_, h2.wf, (evolves_put _ _).trans h2.evolves, h2.config, ?_, ?_, ?_⟩
      · simp only [List.map_cons, notifyLoop, h.tokenstate hed, hts, hnd, if_true, h.account ha,
          h.tokenstateReplace hed, h1, Option.map_some, List.flatMap_cons]
        congr 2
        simp only [authCmdFor, hdue]
        congr 1
        cases ls.config.authNotifyCmd with
        | none => rfl
        | some cmd => simp [h.get?_name ha.2]
      · intro e' he'
        rcases hback e' he' with ⟨hd, hnd'⟩ | ⟨e0, he0, p0, hp0, hn0, ht0, hc0⟩
        · rcases mem_put.mp hd with ⟨hd, hid⟩ | ⟨e0, he0, hid0, rfl⟩
          · refine Or.inl ⟨hd, fun hin => ?_⟩
            rcases List.mem_cons.mp hin with rfl | hin
            · exact absurd rfl hid
            · exact hnd' hin
          · have := h.entry_id_inj he0 hed hid0
            subst this
            exact Or.inr ⟨e0, by simp, p, hdue, rfl, rfl, Nat.le_refl _⟩
        · exact Or.inr ⟨e0, List.mem_cons_of_mem _ he0, p0, hp0, hn0, ht0, by omega⟩
      · intro e' he' hnd'
        refine hkeep e' (mem_put.mpr (Or.inl ⟨he', fun hid => ?_⟩)) fun hin => hnd' (List.mem_cons_of_mem _ hin)
        have := h.entry_id_inj he' hed hid
        subst this
        have := hnd' (by simp)
        rw [hdue] at this; cases this
      · intro e' he' p' hp'
        rcases List.mem_cons.mp he' with rfl | he'
        · rw [hdue] at hp'
          cases hp'
          refine ⟨_, hkeep _ (mem_put_new hed rfl) ?_, rfl, rfl, Nat.le_refl _⟩
          intro hin
          have := h.lt _ (hm _ (List.mem_cons_of_mem _ hin))
          simp at this
        · obtain ⟨e2, he2, h3, h4, h5⟩ := htold e' he' p' hp'
          exact ⟨e2, he2, h3, h4, by omega⟩

end

/-- The possible steps of a process in a well-formed state. -/
inductive StepR (E : Env) (w : World) : Action → World → Prop where
  | tick (d : Dur) : StepR E w (.tick d) { w with now := w.now + (d : Int), wall := w.wall + (d : Int) }
  | setWall (t : SysTime) : StepR E w (.setWall t) { w with wall := t }
  | connect (buf : Bytes) : w.threads 0 = [] →
      StepR E w (.connect buf)
        { w with threads := setThread w.threads 0 [.unix buf, .close], log := (w.now, .request buf) :: w.log }
  | http (buf : Bytes) (sec : Bool) : (if sec then w.st.httpsPort else w.st.httpPort).isSome →
      StepR E w (.http buf sec)
        { w with threads := setThread w.threads w.nextTid [.http buf sec], nextTid := w.nextTid + 1,
                 log := (w.now, .httpReq w.nextTid buf sec) :: w.log }
  | run {tid : Nat} {inp : Input} {op : Op} {rest : List Op} {f : Eff} : w.threads tid = op :: rest →
      ExecR E w.st w.now w.wall w.ls tid op inp f →
      StepR E w (.run tid inp) (w.apply tid rest f)
  | runPanic {tid : Nat} {inp : Input} {op : Op} {rest : List Op} : w.threads tid = op :: rest →
      exec E w.st w.now w.wall w.ls tid op inp = .panic →
      StepR E w (.run tid inp) { w with proc := .aborted }
  | refCompute : w.refPc = .compute →
      StepR E w .refresher
        { w with refPc := .wait (nextWakeup w.now (w.ls.details.map (refreshDueE w.ls w.now))) }
  | refWait {d : Option Instant} : w.refPc = .wait d → World.waitOver w.refPred d w.now = true →
      StepR E w .refresher { w with refPred := false, refPc := .scan }
  | refScan {es : List Entry} : w.refPc = .scan →
      es = (w.ls.details.filter fun e => (refreshDueE w.ls w.now e).any (fun t => decide (t ≤ w.now))) →
      StepR E w .refresher
        { w with threads := spawnAll w.threads w.nextTid (es.map fun e => .rfStart e.id),
                 nextTid := w.nextTid + es.length, refPc := .compute }
  | notCompute : w.notPc = .compute →
      StepR E w .notifier
        { w with notPc := .wait (nextWakeup w.now (w.ls.details.map (notifyDueE w.ls w.now))) }
  | notWait {d : Option Instant} : w.notPc = .wait d → World.waitOver w.notPred d w.now = true →
      StepR E w .notifier { w with notPred := false, notPc := .scan }
  | notScan {ls' : LockedState} : w.notPc = .scan → NotifyR w.now w.ls.details w.ls ls' →
      StepR E w .notifier
        { w with ls := ls', notPc := .compute,
                 log := ((w.ls.details.flatMap (authCmdFor E w.ls.config w.now)).map
                   fun o => (w.now, o)).reverse ++ w.log }
  | evWait : w.evPc = .wait → w.evPred = true →
      StepR E w .eventer { w with evPred := false, evPc := .drain }
  | evEmpty : w.evPc = .drain → w.evQueue = [] → StepR E w .eventer { w with evPc := .wait }
  | evPop {act : String} {e : TokenEvent} {r : List (String × TokenEvent)} : w.evPc = .drain →
      w.evQueue = (act, e) :: r →
      StepR E w .eventer { w with evQueue := r, evPc := .readCmd act e }
  | evNoCmd {act : String} {e : TokenEvent} : w.evPc = .readCmd act e → w.ls.config.tokenEventCmd = none →
      StepR E w .eventer { w with evPc := .wait }
  | evCmd {act : String} {e : TokenEvent} {cmd : String} : w.evPc = .readCmd act e →
      w.ls.config.tokenEventCmd = some cmd →
      StepR E w .eventer { w with evPc := .running, log := (w.now, .eventCmd cmd act e) :: w.log }
  | evEnd : w.evPc = .running →
      StepR E w .eventer { w with evPc := .drain, log := (w.now, .eventCmdEnd) :: w.log }

theorem stepR_of_step {E : Env} {w w' : World} {a : Action} (h : w.ls.WF) (hs : w.step E a = some w') :
    w.proc = .running ∧ StepR E w a w' := by
  unfold World.step at hs
  split at hs
  · cases hs
  · cases hs
  · rename_i hp
    refine ⟨hp, ?_⟩
    cases a with
    | tick d => simp only [Option.some.injEq] at hs; subst hs; exact .tick d
    | setWall t => simp only [Option.some.injEq] at hs; subst hs; exact .setWall t
    | connect buf =>
      simp only at hs
      split at hs
      · simp only [Option.some.injEq] at hs; subst hs
        rename_i hc
        exact .connect buf (by simpa using hc)
      · cases hs
    | http buf sec =>
      have hc : (if sec then w.st.httpsPort else w.st.httpPort).isSome := by
        by_cases hc : (if sec then w.st.httpsPort else w.st.httpPort).isSome
        · exact hc
        · simp only [hc] at hs; simp at hs
      simp only [hc, if_true, Option.some.injEq] at hs
      subst hs
      exact .http buf sec hc
    | run tid inp =>
      simp only at hs
      split at hs
      · cases hs
      · rename_i op rest hth
        split at hs
        · simp only [Option.some.injEq] at hs; subst hs
          exact .runPanic hth (by assumption)
        · cases hs
        · simp only [Option.some.injEq] at hs; subst hs
          exact .run hth (exec_ok h (by assumption))
    | refresher =>
      simp only [World.stepRefresher] at hs
      cases hpc : w.refPc with
      | compute =>
        simp only [hpc, LockedState.actIds, optAll_map (refreshAt w.ls w.now) Entry.id (refreshDueE w.ls w.now)
          w.ls.details fun e he => WF.refreshAt h he w.now, Option.some.injEq] at hs
        subst hs; exact .refCompute hpc
      | wait d =>
        simp only [hpc] at hs
        split at hs
        · simp only [Option.some.injEq] at hs; subst hs; exact .refWait hpc (by assumption)
        · cases hs
      | scan =>
        simp only [hpc, LockedState.actIds, dueIds_map h w.now w.ls.details fun e he => he,
          Option.some.injEq] at hs
        subst hs
        rw [List.map_map, List.length_map]
        exact .refScan hpc rfl
    | notifier =>
      simp only [World.stepNotifier] at hs
      cases hpc : w.notPc with
      | compute =>
        simp only [hpc, LockedState.actIds, optAll_map (notifyAt w.ls w.now) Entry.id (notifyDueE w.ls w.now)
          w.ls.details fun e he => WF.notifyAt h he w.now, Option.some.injEq] at hs
        subst hs; exact .notCompute hpc
      | wait d =>
        simp only [hpc] at hs
        split at hs
        · simp only [Option.some.injEq] at hs; subst hs; exact .notWait hpc (by assumption)
        · cases hs
      | scan =>
        obtain ⟨ls', h1, h2⟩ := notifyLoop_spec E w.now w.ls.details h (fun e he => he) h.ids
        simp only [hpc, LockedState.actIds, h1, Option.some.injEq] at hs
        subst hs
        exact .notScan hpc h2
    | eventer =>
      simp only [World.stepEventer] at hs
      cases hpc : w.evPc with
      | wait =>
        simp only [hpc] at hs
        split at hs
        · simp only [Option.some.injEq] at hs; subst hs; exact .evWait hpc (by assumption)
        · cases hs
      | drain =>
        simp only [hpc] at hs
        cases hq : w.evQueue with
        | nil => simp only [hq, Option.some.injEq] at hs; rw [← hq] at hs; subst hs; exact .evEmpty hpc hq
        | cons x r =>
          obtain ⟨act, e⟩ := x
          simp only [hq, Option.some.injEq] at hs; subst hs; exact .evPop hpc hq
      | readCmd act e =>
        simp only [hpc] at hs
        split at hs
        · simp only [Option.some.injEq] at hs; subst hs; exact .evNoCmd hpc (by assumption)
        · simp only [Option.some.injEq] at hs; subst hs; exact .evCmd hpc (by assumption)
      | running =>
        simp only [hpc, Option.some.injEq] at hs
        subst hs; exact .evEnd hpc

end Pizauth

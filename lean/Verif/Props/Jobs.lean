import Verif.Spec.Jobs
import Verif.Props.Notify

/-!
# C123: commands which the user is told by are run once, and nobody waits for them
-/

namespace Pizauth
namespace Jobs

variable {E : Env} {shell : Commands.Shell}

/-- A step adds its observations in front of the log. -/
theorem news_eq {w w' : World} {l : List (Instant × Obs)} (h : w'.log = l ++ w.log) :
    news w w' = (l.map Prod.snd).reverse := by
  unfold news
  rw [h]
  simp

theorem split_jobs (l : List Obs) :
    (l.filterMap authJob ++ l.filterMap errorJob).Perm (l.filterMap Obs.job) := by
  induction l with
  | nil => simp
  | cons o r ih =>
    cases o <;> simp only [List.filterMap_cons, authJob, errorJob, Obs.job] <;> try exact ih
    · exact List.Perm.cons _ ih
    · exact List.perm_middle.trans (List.Perm.cons _ ih)

theorem jobsOf_append {w w' : World} {l : List (Instant × Obs)} (h : w'.log = l ++ w.log) :
    jobsOf w'.log = jobsOf w.log ++ (news w w').filterMap Obs.job := by
  rw [news_eq h, h]
  simp only [jobsOf, List.reverse_append, List.filterMap_append, ← List.map_reverse, List.filterMap_map]
  rfl

theorem Reach.world {s : Jobs} (h : Reach E shell s) : Pizauth.Reach E s.world := by
  induction h with
  | init hi => exact .init hi
  | @step s s' a _ hs ih =>
    cases a with
    | world a =>
      simp only [Jobs.step] at hs
      split at hs
      · cases hs
      · obtain ⟨w, hw, rfl⟩ := Option.map_eq_some_iff.mp hs
        exact .step a ih hw
    | spawn =>
      simp only [Jobs.step] at hs
      split at hs <;> cases hs
      exact ih
    | start i =>
      simp only [Jobs.step] at hs
      split at hs <;> cases hs
      exact ih
    | finish i =>
      simp only [Jobs.step] at hs
      split at hs <;> cases hs
      exact ih

private theorem perm_eraseIdx {α : Type} {l : List α} {i : Nat} {x : α} (h : l[i]? = some x) :
    (l.eraseIdx i ++ [x]).Perm l := by
  induction l generalizing i with
  | nil => simp at h
  | cons y r ih =>
    cases i with
    | zero =>
      simp only [List.getElem?_cons_zero, Option.some.injEq] at h
      subst h
      exact List.perm_append_singleton _ _
    | succ i =>
      simp only [List.getElem?_cons_succ] at h
      exact List.Perm.cons _ (ih h)

theorem Reach.all {s : Jobs} (h : Reach E shell s) : s.all.Perm (jobsOf s.world.log) := by
  induction h with
  | init hi => rw [hi.log]; exact List.Perm.refl _
  | @step s s' a hr hs ih =>
    cases a with
    | world a =>
      simp only [Jobs.step] at hs
      split at hs
      · cases hs
      · obtain ⟨w, hw, rfl⟩ := Option.map_eq_some_iff.mp hs
        obtain ⟨l, hl⟩ := (stepR_of_step hr.world.inv0.wf hw).2.log
        rw [jobsOf_append hl]
        refine List.Perm.trans ?_ (ih.append (split_jobs (news s.world w)))
        simp only [Jobs.all]
        generalize (news s.world w).filterMap authJob = A
        generalize (news s.world w).filterMap errorJob = B
        generalize s.started.map Prod.snd = C
        simp only [List.append_assoc]
        refine List.Perm.append_left _ ?_
        refine (List.perm_append_comm_assoc A s.threads (B ++ C)).trans ?_
        refine List.Perm.append_left _ ?_
        refine (List.append_assoc A B C ▸ List.perm_append_comm : (A ++ (B ++ C)).Perm (C ++ (A ++ B)))
    | spawn =>
      simp only [Jobs.step] at hs
      split at hs
      · rename_i j r hp ht
        cases hs
        refine List.Perm.trans ?_ ih
        simp only [Jobs.all, ht, List.append_assoc, List.cons_append, List.nil_append]
        exact (List.Perm.append_left _ List.perm_middle).trans List.perm_middle
      · cases hs
    | start i =>
      simp only [Jobs.step] at hs
      split at hs
      · rename_i j hp ht
        cases hs
        refine List.Perm.trans ?_ ih
        simp only [Jobs.all, List.append_assoc, List.map_append, List.map_cons, List.map_nil]
        refine List.Perm.append_left _ ?_
        refine (List.Perm.append_left _ List.perm_append_comm).trans ?_
        rw [← List.append_assoc]
        exact List.Perm.append_right _ (perm_eraseIdx ht)
      · cases hs
    | finish i =>
      simp only [Jobs.step] at hs
      split at hs <;> cases hs
      exact ih

end Jobs

variable {E : Env} {shell : Commands.Shell}

/-- **C123.** With the threads which run the commands, the daemon does nothing which it does not do in
`Model/World.lean`. -/
theorem C123_world {s : Jobs} (h : Jobs.Reach E shell s) : Reach E s.world := h.world

/-- **C123.** Every reminder and every error which it was decided to hand to a command is handed to it exactly once, or is
still waiting for that; and no others are. -/
theorem C123_once {s : Jobs} (h : Jobs.Reach E shell s) :
    (s.todo ++ s.threads ++ s.started.map Prod.snd).Perm (jobsOf s.world.log) := h.all

/-- **C123.** Nobody waits for these commands, however many are running: whatever can happen in `Model/World.lean` can
happen at once, for the notifier after it has started its threads. -/
theorem C123_free {s : Jobs} {a : Action} {w : World} (hs : s.world.step E a = some w) :
    ∃ n s' s'', s.run E shell (List.replicate n .spawn) = some s' ∧ n ≤ s.todo.length ∧ (a ≠ .notifier → n = 0) ∧
      s'.world = s.world ∧ s'.running = s.running ∧ s'.started = s.started ∧
      s'.step E shell (.world a) = some s'' ∧ s''.world = w := by
  have hp : s.world.proc = .running := by
    unfold World.step at hs
    split at hs <;> simp_all
  have go : ∀ (l : List Job) (s : Jobs), s.todo = l → s.world.proc = .running →
      ∃ s', s.run E shell (List.replicate l.length .spawn) = some s' ∧ s'.todo = [] ∧ s'.world = s.world ∧
        s'.running = s.running ∧ s'.started = s.started := by
    intro l
    induction l with
    | nil => intro s ht _; exact ⟨s, rfl, ht, rfl, rfl, rfl⟩
    | cons j r ih =>
      intro s ht hp
      obtain ⟨s', h1, h2, h3, h4, h5⟩ := ih { s with todo := r, threads := s.threads ++ [j] } rfl hp
      refine ⟨s', ?_, h2, h3, h4, h5⟩
      simp only [List.length_cons, List.replicate_succ, Jobs.run, Jobs.step, ht, hp]
      exact h1
  have one : ∀ s' : Jobs, s'.world = s.world → (Jobs.isNotifier a && !s'.todo.isEmpty) = false →
      ∃ s'', s'.step E shell (.world a) = some s'' ∧ s''.world = w := by
    intro s' hw hb
    simp only [Jobs.step, hb, hw, hs, Bool.false_eq_true, if_false, Option.map_some]
    exact ⟨_, rfl, rfl⟩
  by_cases hn : a = .notifier
  · obtain ⟨s', h1, h2, h3, h4, h5⟩ := go s.todo s rfl hp
    obtain ⟨s'', h6, h7⟩ := one s' h3 (by simp [h2])
    exact ⟨_, s', s'', h1, Nat.le_refl _, fun h => absurd hn h, h3, h4, h5, h6, h7⟩
  · have : Jobs.isNotifier a = false := by
      cases a <;> first | rfl | exact absurd rfl hn
    obtain ⟨s'', h6, h7⟩ := one s rfl (by simp [this])
    exact ⟨0, s, s'', rfl, Nat.zero_le _, fun _ => rfl, rfl, rfl, rfl, h6, h7⟩

/-- Every command which is waiting or was started was asked for before. -/
private structure Jobs.Asked (s : Jobs) : Prop where
  waiting : ∀ j ∈ s.todo ++ s.threads, ∃ t o, (t, o) ∈ s.world.log ∧ t ≤ s.world.now ∧ o.job = some j
  started : ∀ t' j, (t', j) ∈ s.started → ∃ t o, (t, o) ∈ s.world.log ∧ t ≤ t' ∧ o.job = some j

private theorem Jobs.Reach.asked {s : Jobs} (h : Jobs.Reach E shell s) : s.Asked := by
  induction h with
  | init hi => exact ⟨by simp, by simp⟩
  | @step s s' a hr hs ih =>
    cases a with
    | world a =>
      simp only [Jobs.step] at hs
      split at hs
      · cases hs
      · obtain ⟨w, hw, rfl⟩ := Option.map_eq_some_iff.mp hs
        have hst := (stepR_of_step hr.world.inv0.wf hw).2
        obtain ⟨l, hl, hnew⟩ := hst.log_new
        have hnow := hst.now
        have old : ∀ j ∈ s.todo ++ s.threads, ∃ t o, (t, o) ∈ w.log ∧ t ≤ w.now ∧ o.job = some j := by
          intro j hj
          obtain ⟨t, o, h1, h2, h3⟩ := ih.waiting j hj
          exact ⟨t, o, by rw [hl]; exact List.mem_append_right _ h1, by omega, h3⟩
        have new : ∀ (g : Obs → Option Job), (∀ o j, g o = some j → o.job = some j) →
            ∀ j ∈ (Jobs.news s.world w).filterMap g, ∃ t o, (t, o) ∈ w.log ∧ t ≤ w.now ∧ o.job = some j := by
          intro g hg j hj
          rw [Jobs.news_eq hl] at hj
          obtain ⟨o, ho, hgo⟩ := List.mem_filterMap.mp hj
          obtain ⟨⟨t, o'⟩, hm, rfl⟩ := List.mem_map.mp (List.mem_reverse.mp ho)
          refine ⟨t, o', by rw [hl]; exact List.mem_append_left _ hm, ?_, hg _ _ hgo⟩
          have := (hnew _ hm).1
          simp only at this
          omega
        refine ⟨?_, ?_⟩
        · intro j hj
          simp only [List.mem_append] at hj
          rcases hj with (hj | hj) | hj | hj
          · exact old j (by simp [hj])
          · exact new authJob (by intro o j h; cases o <;> simp_all [authJob, Obs.job]) j hj
          · exact old j (by simp [hj])
          · exact new errorJob (by intro o j h; cases o <;> simp_all [errorJob, Obs.job]) j hj
        · intro t' j hj
          obtain ⟨t, o, h1, h2⟩ := ih.started t' j hj
          exact ⟨t, o, by simp only; rw [hl]; exact List.mem_append_right _ h1, h2⟩
    | spawn =>
      simp only [Jobs.step] at hs
      split at hs
      · rename_i j r hp ht
        cases hs
        refine ⟨fun j' hj' => ih.waiting j' ?_, ih.started⟩
        rw [ht]
        simp only [List.mem_append, List.mem_cons, List.not_mem_nil, or_false] at hj' ⊢
        rcases hj' with h | h | h
        · exact Or.inl (Or.inr h)
        · exact Or.inr h
        · exact Or.inl (Or.inl h)
      · cases hs
    | start i =>
      simp only [Jobs.step] at hs
      split at hs
      · rename_i j hp ht
        cases hs
        refine ⟨fun j' hj' => ih.waiting j' ?_, fun t' j' hj' => ?_⟩
        · simp only [List.mem_append] at hj' ⊢
          exact hj'.imp_right List.mem_of_mem_eraseIdx
        · simp only [List.mem_append, List.mem_singleton, Prod.mk.injEq] at hj'
          rcases hj' with h | ⟨rfl, rfl⟩
          · exact ih.started t' j' h
          · obtain ⟨t, o, h1, h2, h3⟩ := ih.waiting j' (List.mem_append_right _ (List.mem_of_getElem? ht))
            exact ⟨t, o, h1, h2, h3⟩
      · cases hs
    | finish i =>
      simp only [Jobs.step] at hs
      split at hs <;> cases hs
      exact ⟨ih.waiting, ih.started⟩

/-- What an `auth_notify_cmd` in the log was about. -/
private theorem Reach.authCmd {w : World} (h : Reach E w) {t : Instant} {cmd n url : String}
    (hm : (t, .authCmd cmd n url) ∈ w.log) :
    ∃ w0, Reach E w0 ∧ Steps E w0 w ∧ w0.now = t ∧ w0.ls.config.authNotifyCmd = some cmd ∧
      ∃ p, HoldsPending w0.ls n p ∧ url = E.renderUrl p.url := by
  induction h with
  | init hi => rw [hi.log] at hm; simp at hm
  | @step w w' a hr hs ih =>
    obtain ⟨l, hl⟩ := (stepR_of_step hr.inv0.wf hs).2.log
    rw [hl] at hm
    rcases List.mem_append.mp hm with hm | hm
    · obtain ⟨_, ht, hc, hp⟩ := C30_url hr hs hl hm
      exact ⟨w, hr, .step a .refl hs, ht.symm, hc, hp⟩
    · obtain ⟨w0, h1, h2, h3⟩ := ih hm
      exact ⟨w0, h1, .step a h2 hs, h3⟩

/-- **C123.** A reminder which is started is for an authorisation which was outstanding when the notifier looked, with the
command which was configured then. -/
theorem C123_reminder {s : Jobs} (h : Jobs.Reach E shell s) {t : Instant} {cmd n url : String}
    (hm : (t, .auth cmd n url) ∈ s.started) :
    ∃ w0, Reach E w0 ∧ Steps E w0 s.world ∧ w0.now ≤ t ∧ w0.ls.config.authNotifyCmd = some cmd ∧
      ∃ p, HoldsPending w0.ls n p ∧ url = E.renderUrl p.url := by
  obtain ⟨t0, o, h1, h2, h3⟩ := h.asked.started t _ hm
  cases o <;> simp only [Obs.job, Option.some.injEq, reduceCtorEq, Job.auth.injEq] at h3
  obtain ⟨rfl, rfl, rfl⟩ := h3
  obtain ⟨w0, a1, a2, a3, a4⟩ := h.world.authCmd h1
  exact ⟨w0, a1, a2, by omega, a4⟩

/-! ## A reminder which comes too late -/

open Demo

/-- The notifier looks, the user (who was told by `pizauth show`) authorises pizauth, and only now the reminder is
about to be run. -/
def sTardy : List Jobs.Act :=
  (sTold ++ [Action.notifier]).map Jobs.Act.world ++ [.spawn] ++
    ([Action.http callback false] ++ n1 3 ++ [Action.run 1 { net := .body answer }] ++ n1 4).map Jobs.Act.world

theorem Jobs.run_reach : ∀ (l : List Jobs.Act) {s s' : Jobs}, Jobs.Reach E shell s → s.run E shell l = some s' →
    Jobs.Reach E shell s'
  | [], s, s', h, hr => by simp only [Jobs.run, Option.some.injEq] at hr; exact hr ▸ h
  | a :: l, s, s', h, hr => by
    simp only [Jobs.run] at hr
    cases hs : s.step E shell a with
    | none => simp [hs] at hr
    | some s1 => simp only [hs] at hr; exact Jobs.run_reach l (.step a h hs) hr

/-- The token states, for the examples: without, waiting, with a token. -/
def kinds (w : World) : List (String × Nat) := w.ls.details.map fun e =>
  (e.name, match e.ts with
    | .empty => 0
    | .pending _ => 1
    | .active _ => 2)

theorem kinds_token {w : World} {n : String} (h : (n, 2) ∈ kinds w) : ∃ t, HoldsToken w.ls n t := by
  obtain ⟨e, he, h⟩ := List.mem_map.mp h
  simp only [Prod.mk.injEq] at h
  cases hts : e.ts with
  | empty => rw [hts] at h; simp at h
  | pending p => rw [hts] at h; simp at h
  | active t => exact ⟨t, e, he, h.1, hts⟩

theorem kinds_pending {w : World} {n : String} {p : PendingTok} (h : HoldsPending w.ls n p) : (n, 1) ∈ kinds w := by
  obtain ⟨e, he, hn, hts⟩ := h
  exact List.mem_map.mpr ⟨e, he, by simp [hn, hts]⟩

/-- **C123.** A reminder may be run although the authorisation is no longer outstanding, even though the user has
completed it, and the account has its token. -/
theorem C123_late : ∃ s s' url, Jobs.Reach env (some "/bin/sh") s ∧ s.step env (some "/bin/sh") (.start 0) = some s' ∧
    s'.started = s.started ++ [(s.world.now, .auth "notify" "a" url)] ∧
    (∀ p, ¬ HoldsPending s.world.ls "a" p) ∧ ∃ t, HoldsToken s.world.ls "a" t := by
  have h : (Jobs.run env (some "/bin/sh") { world := w0 } sTardy).map (fun s =>
      (kinds s.world, (s.step env (some "/bin/sh") (.start 0)).map fun s' => decide (s'.started = s.started ++
        [(s.world.now, .auth "notify" "a" askUrl)]))) = some ([("a", 2), ("b b", 0)], some true) := by
    decide +kernel
  obtain ⟨s, hs, h⟩ := Option.map_eq_some_iff.mp h
  simp only [Prod.mk.injEq] at h
  obtain ⟨s', hs', hd⟩ := Option.map_eq_some_iff.mp h.2
  refine ⟨s, s', askUrl, Jobs.run_reach _ (.init w0_init) hs, hs', of_decide_eq_true hd, fun p hp => ?_,
    kinds_token (by rw [h.1]; simp)⟩
  have := kinds_pending hp
  rw [h.1] at this
  simp at this

/-! ## Examples -/

/-- C123: two reminders, which are started in the other order, by the same shell; both are running when the notifier
looks again. -/
example : (Jobs.run env (some "/bin/sh") { world := w0 }
    ((sAsk ++ [Action.connect (Cmd.wire (.show "b b" true))] ++ n0 4 ++ [Action.notifier, .notifier, .notifier]).map
        Jobs.Act.world ++ [.spawn, .spawn, .start 1, .start 0, .world .notifier])).map (fun s =>
      (s.todo.length, s.threads.length, s.running.map fun p => p.prog :: p.args ++ (p.env.take 1).map Prod.snd)) =
    some (0, 0, [["/bin/sh", "-c", "notify", "b b"], ["/bin/sh", "-c", "notify", "a"]]) := by
  decide +kernel

/-- The notifier does not go on before it has started its threads. -/
example : (Jobs.run env (some "/bin/sh") { world := w0 }
    ((sTold ++ [Action.notifier]).map Jobs.Act.world ++ [.world .notifier])).isNone = true := by
  decide +kernel

end Pizauth

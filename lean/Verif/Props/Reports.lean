import Verif.Spec.Reports
import Verif.Proof.Utf8
import Verif.Props.Jobs

/-!
# C126: failures of notification commands are logged
-/

namespace Pizauth

variable {E : Env} {shell : Commands.Shell}

theorem report_failure (j : Job) (o : CmdOutcome) :
    (o.failure = false ∧ j.report shell o = none) ∨
    (o.failure = true ∧ ∃ s, j.report shell o = some ⟨.error, s⟩ ∧ FailureText shell j.about.1 j.about.2 o s) := by
  have ha : j.act = j.about.1 := by cases j <;> rfl
  have hc : j.cmd = j.about.2 := by cases j <;> rfl
  cases o with
  | failed e =>
    refine .inr ⟨rfl, ?_⟩
    cases hs : shell with
    | none => exact ⟨e, rfl, .noShell e rfl⟩
    | some x => exact ⟨_, rfl, by rw [ha, hc]; exact .failed e (by simp)⟩
  | exited code out err =>
    by_cases h : code = some 0
    · subst h; exact .inl ⟨rfl, rfl⟩
    · refine .inr ⟨?_, j.act ++ ": error when running '" ++ j.cmd ++ "': " ++ (fromUtf8 out).getD j.unprintable,
        by simp only [Job.report, if_neg h], ?_⟩
      · unfold CmdOutcome.failure; split <;> simp_all
      · rw [ha, hc]
        cases hu : fromUtf8 out with
        | some t =>
          have := utf8_of_fromUtf8 hu
          subst this
          exact .printed code t err
        | none =>
          refine .unprintable code out err _ (fun t ht => ?_) (by cases j <;> simp [Job.unprintable])
          rw [ht, fromUtf8_utf8] at hu
          cases hu

/-- What holds in every state. -/
structure Reports.Inv (E : Env) (shell : Commands.Shell) (r : Reports) : Prop where
  jobs : Jobs.Reach E shell r.jobs
  all : (r.live ++ r.ended.map Prod.fst).Perm (r.jobs.started.map Prod.snd)
  live : r.live.map (·.process shell) = r.jobs.running.map .ok
  said : r.said = r.ended.flatMap fun p => (p.1.report shell p.2).toList

private theorem map_eraseIdx' {α β : Type} (f : α → β) : ∀ (l : List α) (i : Nat), (l.eraseIdx i).map f = (l.map f).eraseIdx i
  | [], _ => rfl
  | _ :: _, 0 => rfl
  | a :: l, i + 1 => by simp [map_eraseIdx' f l i]

private theorem perm_erase {α : Type} : ∀ {l : List α} {i : Nat} {a : α}, l[i]? = some a → l.Perm (a :: l.eraseIdx i)
  | b :: l, 0, a, h => by simp at h; subst h; simp
  | b :: l, i + 1, a, h => by
    simp only [List.getElem?_cons_succ] at h
    simp only [List.eraseIdx_cons_succ]
    exact ((perm_erase h).cons b).trans (.swap a b _)

theorem Reports.Reach.inv {r : Reports} (h : Reports.Reach E shell r) : r.Inv E shell := by
  induction h with
  | init hi => exact ⟨.init hi, .refl _, rfl, rfl⟩
  | @step r r' a _ hs ih =>
    have easy : ∀ {b : Jobs.Act} {s : Jobs}, r.jobs.step E shell b = some s → s.started = r.jobs.started →
        s.running = r.jobs.running → ({ r with jobs := s } : Reports).Inv E shell := by
      intro b s hb h1 h2
      exact ⟨.step b ih.jobs hb, by simp only; rw [h1]; exact ih.all, by simp only; rw [h2]; exact ih.live, ih.said⟩
    cases a with
    | finish i o =>
      simp only [Reports.step] at hs
      split at hs
      · rename_i s j hj hl
        cases hs
        have hd := hj
        simp only [Jobs.step] at hd
        split at hd <;> cases hd
        refine ⟨.step _ ih.jobs hj, ?_, ?_, ?_⟩
        · simp only [Reports.close, List.map_append, List.map_cons, List.map_nil]
          refine .trans ?_ ih.all
          rw [← List.append_assoc]
          refine .trans List.perm_append_comm ?_
          exact ((perm_erase hl).append_right _).symm
        · simp only [Reports.close]
          rw [map_eraseIdx', ih.live, map_eraseIdx']
        · simp only [Reports.close, List.flatMap_append, List.flatMap_cons, List.flatMap_nil, List.append_nil]
          rw [ih.said]
      · cases hs
    | job a =>
      cases a with
      | finish i => simp [Reports.step] at hs
      | world x =>
        simp only [Reports.step] at hs
        obtain ⟨s, hj, rfl⟩ := Option.map_eq_some_iff.mp hs
        have hd := hj
        simp only [Jobs.step] at hd
        split at hd
        · cases hd
        · obtain ⟨w, _, rfl⟩ := Option.map_eq_some_iff.mp hd
          exact easy hj rfl rfl
      | spawn =>
        simp only [Reports.step] at hs
        obtain ⟨s, hj, rfl⟩ := Option.map_eq_some_iff.mp hs
        have hd := hj
        simp only [Jobs.step] at hd
        split at hd <;> cases hd
        exact easy hj rfl rfl
      | start i =>
        simp only [Reports.step] at hs
        split at hs
        · rename_i s j hj hl
          have hd := hj
          simp only [Jobs.step] at hd
          split at hd
          · rename_i j' _ hl'
            rw [hl] at hl'
            cases hl'
            cases hd
            split at hs
            · rename_i p hp
              cases hs
              refine ⟨.step _ ih.jobs hj, ?_, ?_, ih.said⟩
              · simp only [List.map_append, List.map_cons, List.map_nil]
                refine .trans ?_ (ih.all.append_right _)
                rw [List.append_assoc, List.append_assoc]
                exact List.perm_append_comm.append_left _
              · simp [hp, ih.live]
            · rename_i e he
              cases hs
              refine ⟨.step _ ih.jobs hj, ?_, ?_, ?_⟩
              · simp only [Reports.close, List.map_append, List.map_cons, List.map_nil]
                rw [← List.append_assoc]
                exact ih.all.append_right _
              · simp [Reports.close, he, ih.live]
              · simp only [Reports.close, List.flatMap_append, List.flatMap_cons, List.flatMap_nil, List.append_nil]
                rw [ih.said]
          · cases hd
        · cases hs

/-- **C126.** Every command which was started (C123) is running, or its thread is done with it; nothing is done about the
same command twice. -/
theorem C126 {r : Reports} (h : Reports.Reach E shell r) :
    Jobs.Reach E shell r.jobs ∧ (r.live ++ r.ended.map Prod.fst).Perm (r.jobs.started.map Prod.snd) ∧
    r.live.map (·.process shell) = r.jobs.running.map .ok :=
  ⟨h.inv.jobs, h.inv.all, h.inv.live⟩

private theorem said_failures : ∀ (l : List (Job × CmdOutcome)),
    (l.flatMap fun p => (p.1.report shell p.2).toList).length = (l.filter fun p => p.2.failure).length ∧
    ∀ (k : Nat) (j : Job) (o : CmdOutcome), (l.filter fun p => p.2.failure)[k]? = some (j, o) →
      ∃ s, (l.flatMap fun p => (p.1.report shell p.2).toList)[k]? = some ⟨.error, s⟩ ∧
        FailureText shell j.about.1 j.about.2 o s
  | [] => ⟨rfl, by simp⟩
  | (j, o) :: l => by
    obtain ⟨h1, h2⟩ := said_failures l
    rcases report_failure (shell := shell) j o with ⟨hf, hr⟩ | ⟨hf, s, hr, ht⟩
    · simp only [List.flatMap_cons, hr, Option.toList_none, List.nil_append, List.filter_cons, hf]
      exact ⟨h1, h2⟩
    · simp only [List.flatMap_cons, hr, Option.toList_some, List.singleton_append, List.filter_cons, hf, if_true,
        List.length_cons, h1, true_and]
      intro k j' o' hk
      cases k with
      | zero =>
        simp only [List.getElem?_cons_zero, Option.some.injEq, Prod.mk.injEq] at hk
        obtain ⟨rfl, rfl⟩ := hk
        exact ⟨s, rfl, ht⟩
      | succ k => exact h2 k j' o' hk

/-- **C126.** For each command which has failed, and for no other, one error is logged, in this order; it names the account
and the command (unless there is no shell) and says why the command could not be run, or what it printed to stdout. -/
theorem C126_said {r : Reports} (h : Reports.Reach E shell r) :
    r.said.length = (r.ended.filter fun p => p.2.failure).length ∧
    ∀ (k : Nat) (j : Job) (o : CmdOutcome), (r.ended.filter fun p => p.2.failure)[k]? = some (j, o) →
      ∃ s, r.said[k]? = some ⟨.error, s⟩ ∧ FailureText shell j.about.1 j.about.2 o s := by
  rw [h.inv.said]
  exact said_failures r.ended

/-- **C126.** The outcome of a command changes nothing but what is logged: whatever happens without it (C123) can happen. -/
theorem C126_total {s : Jobs} (h : Jobs.Reach E shell s) : ∃ r, Reports.Reach E shell r ∧ r.jobs = s := by
  induction h with
  | init hi => exact ⟨_, .init hi, rfl⟩
  | @step s s' a _ hs ih =>
    obtain ⟨r, hr, rfl⟩ := ih
    cases a with
    | world x => exact ⟨{ r with jobs := s' }, .step (.job (.world x)) hr (by simp [Reports.step, hs]), rfl⟩
    | spawn => exact ⟨{ r with jobs := s' }, .step (.job .spawn) hr (by simp [Reports.step, hs]), rfl⟩
    | start i =>
      have hd := hs
      simp only [Jobs.step] at hd
      split at hd
      · rename_i j _ hl
        cases hp : j.process shell with
        | ok p =>
          exact ⟨{ r with jobs := s', live := r.live ++ [j] },
            .step (.job (.start i)) hr (by simp [Reports.step, hs, hl, hp]), rfl⟩
        | error e =>
          exact ⟨({ r with jobs := s' } : Reports).close shell j (.failed e),
            .step (.job (.start i)) hr (by simp [Reports.step, hs, hl, hp]), rfl⟩
      · cases hd
    | finish i =>
      have hd := hs
      simp only [Jobs.step] at hd
      split at hd
      · rename_i hi
        have hlen : r.live.length = r.jobs.running.length := by simpa using congrArg List.length hr.inv.live
        obtain ⟨j, hl⟩ : ∃ j, r.live[i]? = some j := ⟨_, List.getElem?_eq_getElem (by omega)⟩
        exact ⟨({ r with jobs := s', live := r.live.eraseIdx i } : Reports).close shell j (.failed ""),
          .step (.finish i (.failed "")) hr (by simp [Reports.step, hs, hl]), rfl⟩
      · cases hd

/-- **C126.** What a command prints to stderr is not logged. -/
theorem C126_stderr (r : Reports) (i : Nat) (code : Option Int) (out err err' : Bytes) :
    (r.step E shell (.finish i (.exited code out err))).map Reports.said =
      (r.step E shell (.finish i (.exited code out err'))).map Reports.said := by
  simp only [Reports.step]
  split <;> rfl

/-! ## Examples -/

namespace Demo

/-- A reminder, whose command ends so. -/
def told (o : CmdOutcome) : List Reports.Act :=
  (sTold ++ [Action.notifier]).map (fun a => .job (.world a)) ++ [.job .spawn, .job (.start 0), .finish 0 o]

/-- C126: a command which fails. -/
example : (Reports.run env (some "/bin/sh") { jobs := { world := w0 } }
    (told (.exited (some 1) (utf8 "no display\n") (utf8 "oops")))).map Reports.said =
    some [⟨.error, "a: error when running 'notify': no display\n"⟩] := by decide +kernel

/-- By a signal; what it printed is not text. -/
example : (Reports.run env (some "/bin/sh") { jobs := { world := w0 } } (told (.exited none [255] []))).map Reports.said =
    some [⟨.error, "a: error when running 'notify': <stderr not representable as UTF-8"⟩] := by decide +kernel

/-- One which succeeds; and no shell. -/
example : (Reports.run env (some "/bin/sh") { jobs := { world := w0 } } (told (.exited (some 0) (utf8 "x") []))).map
    Reports.said = some [] := by decide +kernel
example : (Reports.run env none { jobs := { world := w0 } } (told (.failed "")).dropLast).map Reports.said =
    some [⟨.error, "environment variable not found"⟩] := by decide +kernel

end Demo
end Pizauth

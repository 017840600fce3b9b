import Verif.Spec.Log
import Verif.Proof.Lineage

/-!
# The main thread: answers are decided by the request they answer
-/

namespace Pizauth
open LockedState

def Obs.isRequest : Obs → Bool
  | .request _ => true
  | _ => false

theorem lastRequest_append : ∀ (l L : Log), (∀ p ∈ l, p.2.isRequest = false) →
    lastRequest (l ++ L) = lastRequest L
  | [], _, _ => rfl
  | (t, o) :: l, L, h => by
    have h1 := h (t, o) (by simp)
    have h2 := lastRequest_append l L fun p hp => h p (by simp [hp])
    cases o <;> simp [Obs.isRequest] at h1 <;> simpa [lastRequest] using h2

variable {E : Env}

theorem ExecR.obs_not_request {S : Static} {now : Instant} {wall : SysTime} {ls : LockedState} {tid : Nat} {op : Op}
    {inp : Input} {f : Eff} (hx : ExecR E S now wall ls tid op inp f) : ∀ o ∈ f.obs, o.isRequest = false := by
  intro o ho
  cases hx <;> simp at ho <;> subst ho <;> rfl

theorem authCmdFor_mem {c : Config} {now : Instant} {e : Entry} {o : Obs} (h : o ∈ authCmdFor E c now e) :
    ∃ p cmd, dueEntry c.authNotifyInterval now e = some p ∧ c.authNotifyCmd = some cmd ∧
      o = .authCmd cmd e.name (E.renderUrl p.url) := by
  unfold authCmdFor at h
  split at h
  · rename_i p cmd h1 h2
    simp at h
    exact ⟨p, cmd, h1, h2, h⟩
  · simp at h

theorem StepR.lastRequest {w w' : World} {a : Action} (hs : StepR E w a w') (h0 : w.threads 0 ≠ []) :
    lastRequest w'.log = lastRequest w.log := by
  cases hs <;> try rfl
  case connect h => exact absurd h h0
  case run op rest f ht hx =>
    refine lastRequest_append _ _ ?_
    intro p hp
    simp at hp
    obtain ⟨o, ho, rfl⟩ := hp
    exact hx.obs_not_request o ho
  case notScan =>
    refine lastRequest_append _ _ ?_
    intro p hp
    simp at hp
    obtain ⟨o, ⟨e, he, ho⟩, rfl⟩ := hp
    obtain ⟨_, _, _, _, rfl⟩ := authCmdFor_mem ho
    rfl

theorem StepR.config {w w' : World} {a : Action} (h0 : Inv0 E w) (hs : StepR E w a w') :
    w'.ls.config = w.ls.config ∨ ∃ c tid rest, w.threads tid = .install c :: rest ∧ w'.ls.config = c := by
  cases hs <;> try exact Or.inl rfl
  case run tid inp op rest f ht hx =>
    rcases (hx.state h0.wf (by rintro c rfl; exact h0.inst tid c (by rw [ht]; simp))).2.2 with h | h
    · exact Or.inl h
    · exact Or.inr ⟨f.ls.config, tid, rest, by rw [ht, h], rfl⟩
  case notScan hp hn => exact Or.inl hn.config

theorem StepR.threads0 {w w' : World} {a : Action} (h0 : Inv0 E w) (hs : StepR E w a w')
    (hne : w.threads 0 ≠ []) (ha : ∀ inp, a ≠ .run 0 inp) : w'.threads 0 = w.threads 0 := by
  have hp := h0.tid0
  cases hs <;> try rfl
  case connect h => exact absurd h hne
  case http => simp only; rw [setThread_ne _ (by omega)]
  case run tid inp op rest f ht hx =>
    refine apply_threads_other hp ?_ rest f
    rintro rfl
    exact ha inp rfl
  case refScan => simp only; rw [spawnAll_lt _ _ _ _ hp]

theorem StepR.idle0 {w w' : World} {a : Action} (h0 : Inv0 E w) (hs : StepR E w a w')
    (hne : w.threads 0 = []) : w'.threads 0 = [] ∨ ∃ buf, a = .connect buf ∧
      w'.threads 0 = [.unix buf, .close] ∧ w'.log = (w.now, .request buf) :: w.log := by
  have hp := h0.tid0
  cases hs <;> try exact Or.inl hne
  case connect buf h => exact Or.inr ⟨buf, rfl, by simp only [setThread_same], rfl⟩
  case http => left; simp only; rw [setThread_ne _ (by omega)]; exact hne
  case run tid inp op rest f ht hx =>
    left
    rw [apply_threads_other hp ?_ rest f]
    · exact hne
    · rintro rfl; rw [hne] at ht; cases ht
  case refScan => left; simp only; rw [spawnAll_lt _ _ _ _ hp]; exact hne

/-- The moment at which the answer to request `buf` was decided. -/
structure Decided (E : Env) (w : World) (t : Instant) (buf : Bytes) (wd : World) (inp : Input) (f : Eff) : Prop where
  reach : Reach E wd
  start : wd.threads 0 = [.unix buf, .close]
  req : lastRequest wd.log = some (t, buf)
  exec : ExecR E wd.st wd.now wd.wall wd.ls 0 (.unix buf) inp f
  step : wd.step E (.run 0 inp) = some (wd.apply 0 [.close] f)
  steps : Steps E (wd.apply 0 [.close] f) w
  suffix : w.threads 0 <:+ f.next ++ [.close]
  config : w.ls.config = wd.ls.config ∨ parseReq buf = .reload

theorem Decided.allSteps {w : World} {t : Instant} {buf : Bytes} {wd : World} {inp : Input} {f : Eff}
    (h : Decided E w t buf wd inp f) : Steps E wd w :=
  Steps.trans (.step _ .refl h.step) h.steps

def MainInv (E : Env) (w : World) : Prop :=
  w.threads 0 = [] ∨ ∃ t buf, lastRequest w.log = some (t, buf) ∧
    (w.threads 0 = [.unix buf, .close] ∨ ∃ wd inp f, Decided E w t buf wd inp f)

theorem suffix_tail {α : Type} {x : α} {l m : List α} (h : x :: l <:+ m) : l <:+ m :=
  (List.suffix_cons x l).trans h

theorem Reach.mainInv {w : World} (hr : Reach E w) : MainInv E w := by
  induction hr with
  | init hi => exact Or.inl (hi.threads 0)
  | @step w w' a hw hstep ih =>
    have h0 := hw.inv0
    obtain ⟨hrun, hs⟩ := stepR_of_step h0.wf hstep
    rcases ih with ih | ⟨t, buf, hreq, ih⟩
    · rcases hs.idle0 h0 ih with h | ⟨buf, _, h1, h2⟩
      · exact Or.inl h
      · exact Or.inr ⟨w.now, buf, by rw [h2]; rfl, Or.inl h1⟩
    · have hne : w.threads 0 ≠ [] ∨ w.threads 0 = [] := by
        by_cases h : w.threads 0 = []
        · exact Or.inr h
        · exact Or.inl h
      rcases hne.symm with hidle | hne
      · rcases hs.idle0 h0 hidle with h | ⟨buf, _, h1, h2⟩
        · exact Or.inl h
        · exact Or.inr ⟨w.now, buf, by rw [h2]; rfl, Or.inl h1⟩
      have hreq' : lastRequest w'.log = some (t, buf) := by rw [hs.lastRequest hne]; exact hreq
      by_cases ha : ∃ inp, a = .run 0 inp
      · obtain ⟨inp, rfl⟩ := ha
        rcases ih with hstart | ⟨wd, inp', f', hd⟩
        · refine Or.inr ⟨t, buf, hreq', ?_⟩
          cases hs with
          | runPanic ht hx => left; exact hstart
          | @run _ _ op rest f ht hx =>
            rw [hstart] at ht
            cases ht
            right
            refine ⟨w, inp, f, hw, hstart, hreq, hx, hstep, .refl, ?_, ?_⟩
            · rw [apply_threads_self h0.tid0]; exact List.suffix_refl _
            · rcases (hx.state h0.wf (by rintro c hc; cases hc)).2.2 with h | h
              · exact Or.inl h
              · cases h
        · right
          refine ⟨t, buf, hreq', Or.inr ⟨wd, inp', f', ?_⟩⟩
          have hsteps := hd.steps.trans (Steps.one hstep)
          have hsuf : w'.threads 0 <:+ f'.next ++ [.close] := by
            cases hs with
            | runPanic ht hx => exact hd.suffix
            | @run _ _ op rest f ht hx =>
              rw [apply_threads_self h0.tid0]
              have hsf := hd.suffix
              rw [ht] at hsf
              have hm := (Reach.shape w hw).main
              rw [ht] at hm
              have hnn : f.next = [] := by
                rcases hm.cons with ⟨b, rfl, rfl⟩ | ⟨c, rfl, rfl⟩ | ⟨rfl, rfl⟩ | ⟨ho, _⟩
                · -- a request cannot be part of what is left to do
                  exfalso
                  have hmem : (Op.unix b) ∈ f'.next ++ [.close] := hsf.mem (by simp)
                  simp at hmem
                  rcases hd.exec.unix_next with ⟨c, hc⟩ | hn
                  · rw [hc] at hmem; simp at hmem
                  · have := hn _ hmem; simp [Op.isTail, Op.isReply] at this
                · exact hx.install_next.1
                · exact (hx.plain (by simp)).1
                · exact (hx.plain (by rcases ho with ho | ho <;> simp [ho])).1
              rw [hnn, List.nil_append]
              exact suffix_tail hsf
          refine ⟨hd.reach, hd.start, hd.req, hd.exec, hd.step, hsteps, hsuf, ?_⟩
          rcases hs.config h0 with hc | ⟨c, tid, rest, ht, hc⟩
          · rw [hc]; exact hd.config
          · right
            obtain ⟨rfl, _⟩ := (Reach.shape w hw).install (i := tid) (c := c) (by rw [ht]; simp)
            have hmem : (Op.install c) ∈ f'.next ++ [.close] := hd.suffix.mem (by rw [ht]; simp)
            simp at hmem
            obtain ⟨b, hb, hpr, _⟩ := hd.exec.next_install (Or.inl hmem)
            cases hb
            exact hpr
      · have ht0 : w'.threads 0 = w.threads 0 := hs.threads0 h0 hne (fun inp h => ha ⟨inp, h⟩)
        refine Or.inr ⟨t, buf, hreq', ?_⟩
        rcases ih with hstart | ⟨wd, inp', f', hd⟩
        · left; rw [ht0]; exact hstart
        · right
          refine ⟨wd, inp', f', hd.reach, hd.start, hd.req, hd.exec, hd.step,
            hd.steps.trans (Steps.one hstep), by rw [ht0]; exact hd.suffix, ?_⟩
          rcases hs.config h0 with hc | ⟨c, tid, rest, ht, hc⟩
          · rw [hc]; exact hd.config
          · obtain ⟨rfl, _⟩ := (Reach.shape w hw).install (i := tid) (c := c) (by rw [ht]; simp)
            right
            have hmem : (Op.install c) ∈ f'.next ++ [.close] := hd.suffix.mem (by rw [ht]; simp)
            simp at hmem
            obtain ⟨b, hb, hpr, _⟩ := hd.exec.next_install (Or.inl hmem)
            cases hb
            exact hpr

theorem append_self_nil {α : Type} {l m : List α} (h : m = l ++ m) : l = [] := by
  have := congrArg List.length h
  simp at this
  exact this

/-- A reply in the log was written by the main thread. -/
theorem StepR.reply_obs {w w' : World} {a : Action} {t : Instant} {b : Bytes} (hs : StepR E w a w')
    (hl : w'.log = (t, .reply b) :: w.log) :
    t = w.now ∧ ∃ tid rest, w.threads tid = .reply b :: rest := by
  cases hs
  case run tid inp op rest f ht hx =>
    simp only [World.apply] at hl
    have hl' : (f.obs.map fun o => (w.now, o)).reverse = [(t, .reply b)] := by
      refine List.append_cancel_right (bs := w.log) ?_
      rw [hl]; rfl
    have hlen := congrArg List.length hl'
    simp at hlen
    obtain ⟨o, ho⟩ := List.length_eq_one_iff.mp hlen
    rw [ho] at hl'
    simp at hl'
    obtain ⟨rfl, rfl⟩ := hl'
    refine ⟨rfl, tid, rest, ?_⟩
    rw [ht]
    cases hx <;> simp at ho
    subst ho; rfl
  case notScan =>
    simp only at hl
    exfalso
    have hl' := List.append_cancel_right (bs := w.log) (cs := [(t, Obs.reply b)]) (by rw [hl]; rfl)
    have hm : (t, Obs.reply b) ∈ [(t, Obs.reply b)] := by simp
    rw [← hl'] at hm
    simp only [List.mem_reverse, List.mem_map, List.mem_flatMap, Prod.mk.injEq] at hm
    obtain ⟨o, ⟨e, he, ho⟩, _, rfl⟩ := hm
    obtain ⟨_, _, _, _, h⟩ := authCmdFor_mem ho
    cases h
  all_goals simp at hl

/-- An answer was decided in an earlier state, by the request which it answers. -/
theorem Answers.decided_at {w : World} {buf b : Bytes} (h : Answers E w buf b) :
    ∃ t wd inp f, Decided E w t buf wd inp f ∧ .reply b ∈ f.next ∧ .reply b ∈ w.threads 0 ∧
      lastRequest w.log = some (t, buf) := by
  obtain ⟨hr, ⟨act, w', t', hst, hl⟩, ⟨t, hreq⟩⟩ := h
  have hs := (stepR_of_step hr.inv0.wf hst).2
  obtain ⟨_, tid, rest, ht⟩ := hs.reply_obs hl
  have hmem : .reply b ∈ w.threads tid := by rw [ht]; simp
  have := (Reach.shape w hr).reply hmem
  subst this
  rcases hr.mainInv with h | ⟨t2, buf2, hreq2, h | ⟨wd, inp, f, hd⟩⟩
  · rw [h] at hmem; simp at hmem
  · rw [h] at hmem; simp at hmem
  · rw [hreq2] at hreq
    cases hreq
    refine ⟨t, wd, inp, f, hd, ?_, hmem, hreq2⟩
    have := hd.suffix.mem hmem
    simpa using this

theorem Answers.decided {w : World} {buf b : Bytes} (h : Answers E w buf b) :
    ∃ t wd inp f, Decided E w t buf wd inp f ∧ .reply b ∈ f.next ∧ .reply b ∈ w.threads 0 := by
  obtain ⟨t, wd, inp, f, h1, h2, h3, _⟩ := h.decided_at
  exact ⟨t, wd, inp, f, h1, h2, h3⟩

/-- Times in the log are not in the future. -/
theorem Reach.log_le : ∀ w, Reach E w → ∀ p ∈ w.log, p.1 ≤ w.now := by
  apply Reach.induct
  · intro w hi p hp; rw [hi.log] at hp; simp at hp
  · intro w a w' _ h0 _ ih hs p hp
    have hnow := hs.now
    have hnew : p ∈ w.log → p.1 ≤ w'.now := fun h => Int.le_trans (ih p h) hnow
    cases hs <;> try exact hnew hp
    case connect =>
      rcases List.mem_cons.mp hp with rfl | hp
      · exact Int.le_refl _
      · exact ih p hp
    case http =>
      rcases List.mem_cons.mp hp with rfl | hp
      · exact Int.le_refl _
      · exact ih p hp
    case run =>
      simp only [World.apply, List.mem_append, List.mem_reverse, List.mem_map] at hp
      rcases hp with ⟨o, _, rfl⟩ | hp
      · exact Int.le_refl _
      · exact ih p hp
    case notScan =>
      simp only [List.mem_append, List.mem_reverse, List.mem_map] at hp
      rcases hp with ⟨o, _, rfl⟩ | hp
      · exact Int.le_refl _
      · exact ih p hp
    case evCmd =>
      rcases List.mem_cons.mp hp with rfl | hp
      · exact Int.le_refl _
      · exact ih p hp
    case evEnd =>
      rcases List.mem_cons.mp hp with rfl | hp
      · exact Int.le_refl _
      · exact ih p hp

theorem lastRequest_mem : ∀ {L : Log} {t : Instant} {buf : Bytes}, lastRequest L = some (t, buf) →
    (t, .request buf) ∈ L
  | (t', o) :: L, t, buf, h => by
    by_cases hc : o.isRequest = true
    · cases o <;> simp [Obs.isRequest] at hc
      simp [lastRequest] at h
      obtain ⟨rfl, rfl⟩ := h
      simp
    · have : lastRequest ((t', o) :: L) = lastRequest L :=
        lastRequest_append [(t', o)] L (by simp; simpa using hc)
      rw [this] at h
      exact List.mem_cons_of_mem _ (lastRequest_mem h)

end Pizauth

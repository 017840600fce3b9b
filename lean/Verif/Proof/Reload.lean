import Verif.Spec.Reload
import Verif.Proof.Revoke

/-!
# Lemmas about reloading
-/

namespace Pizauth
open LockedState

variable {E : Env}

/-- A step which logs exactly one observation of an operation. -/
theorem StepR.single_obs {w w' : World} {a : Action} {t : Instant} {o : Obs} (hs : StepR E w a w')
    (hl : w'.log = (t, o) :: w.log) (h1 : ∀ b, o ≠ .request b) (h2 : ∀ i b s, o ≠ .httpReq i b s)
    (h3 : ∀ c x u, o ≠ .authCmd c x u) (h4 : ∀ c x u, o ≠ .eventCmd c x u) (h5 : o ≠ .eventCmdEnd) :
    ∃ tid inp op rest f, a = .run tid inp ∧ w.threads tid = op :: rest ∧
      ExecR E w.st w.now w.wall w.ls tid op inp f ∧ f.obs = [o] ∧ w' = w.apply tid rest f ∧ t = w.now := by
  cases hs
  case run tid inp op rest f ht hx =>
    simp only [World.apply] at hl
    have hl' : (f.obs.map fun o => (w.now, o)).reverse = [(t, o)] := by
      refine List.append_cancel_right (bs := w.log) ?_
      rw [hl]; rfl
    have hlen := congrArg List.length hl'
    simp at hlen
    obtain ⟨o', ho⟩ := List.length_eq_one_iff.mp hlen
    rw [ho] at hl'
    simp at hl'
    obtain ⟨rfl, rfl⟩ := hl'
    exact ⟨tid, inp, op, rest, f, rfl, ht, hx, ho, rfl, rfl⟩
  case notScan =>
    simp only at hl
    exfalso
    have hl' := List.append_cancel_right (bs := w.log) (cs := [(t, o)]) (by rw [hl]; rfl)
    have hm : (t, o) ∈ [(t, o)] := by simp
    rw [← hl'] at hm
    simp only [List.mem_reverse, List.mem_map, List.mem_flatMap, Prod.mk.injEq] at hm
    obtain ⟨o, ⟨e, he, ho⟩, _, rfl⟩ := hm
    obtain ⟨_, _, _, _, h⟩ := authCmdFor_mem ho
    exact h3 _ _ _ h
  all_goals simp [Ne.symm (h1 _), Ne.symm (h2 _ _ _), Ne.symm (h4 _ _ _), h5.symm] at hl

/-- What a reload does. -/
theorem Reloads.state {w w' : World} {c : Config} (h : Reloads E w c w') :
    Reach E w' ∧ w.ls.updateConf c = some w'.ls ∧ c.Ok E ∧ w.threads 0 ≠ [] ∧
    (∃ inp, w.step E (.run 0 inp) = some w') ∧
    w.threads 0 = .install c :: w'.threads 0 ∧
    w'.threads 0 = [.wakeNotifier, .wakeRefresher, .reply (utf8 "ok:"), .close] ∧
    (∀ i, i ≠ 0 → w'.threads i = w.threads i) ∧ w'.ls.config = c := by
  obtain ⟨hr, ⟨act, hst⟩, ⟨t, hl⟩⟩ := h
  have h0 := hr.inv0
  have hs := (stepR_of_step h0.wf hst).2
  obtain ⟨tid, inp, op, rest, f, rfl, ht, hx, hobs, rfl, rfl⟩ := hs.single_obs hl (by simp) (by simp) (by simp) (by simp) (by simp)
  cases hx <;> simp only [List.cons.injEq, reduceCtorEq, and_true, Obs.reloaded.injEq] at hobs
  case install c' ls' hu =>
    subst hobs
    have hi : Op.install c' ∈ w.threads tid := by rw [ht]; simp
    obtain ⟨rfl, hsh⟩ := (Reach.shape w hr).install hi
    have hrest : rest = [.wakeNotifier, .wakeRefresher, .reply (utf8 "ok:"), .close] := by
      have hsh := (Reach.shape w hr).main
      rw [ht] at hsh
      rcases hsh.cons with ⟨b, h, h'⟩ | ⟨c, h, h'⟩ | ⟨h, h'⟩ | ⟨h, _⟩
      · cases h
      · exact h'
      · cases h
      · simp [Op.isTail, Op.isReply] at h
    have hc := h0.inst 0 c' hi
    obtain ⟨ls'', h1, h2, h3, h4, h5⟩ := h0.wf.updateConf hc.nodup hc.names
    rw [hu] at h1
    cases h1
    refine ⟨.step _ hr hst, hu, hc, by rw [ht]; simp, ⟨inp, hst⟩, ?_, ?_, ?_, h4⟩
    · rw [apply_threads_self h0.tid0, ht]; simp
    · rw [apply_threads_self h0.tid0, hrest]; simp
    · intro i hi'
      simp only [World.apply, spawnAll]
      exact setThread_ne _ hi' _

end Pizauth

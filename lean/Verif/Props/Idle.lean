import Verif.Spec.Idle
import Verif.Props.Schedule
import Verif.Proof.Fair

/-!
# C118: the background threads do not run in vain
-/

namespace Pizauth
open LockedState

variable {E : Env}

section lemmas
variable {w w' : World} {a : Action}

theorem flags_step (hs : StepR E w a w') :
    (w'.refPred = true → w.refPred = true ∨ Does w a .wakeRefresher) ∧
    (w'.notPred = true → w.notPred = true ∨ Does w a .wakeNotifier) ∧
    (w'.evPred = true → w.evPred = true ∨ Does w a .wakeEventer) := by
  cases hs
  case run tid inp op rest f ht hx =>
    simp only [World.apply, Bool.or_eq_true]
    refine ⟨Or.imp_right fun h => ⟨tid, inp, rest, rfl, ?_⟩, Or.imp_right fun h => ⟨tid, inp, rest, rfl, ?_⟩,
      Or.imp_right fun h => ⟨tid, inp, rest, rfl, ?_⟩⟩
    all_goals (cases hx <;> first | exact ht | (exfalso; revert h; simp))
  all_goals simp_all

theorem StepsWithout.steps {o : Op} {w0 : World} (h : StepsWithout E o w0 w) : Steps E w0 w := by
  induction h with
  | refl => exact .refl
  | step a _ hs _ ih => exact .step a ih hs

/-- A flag which only `o` sets remains down while no thread does `o`. -/
theorem StepsWithout.flag {o : Op} {w0 : World} {flag : World → Bool} (hr : Reach E w0) (h0 : flag w0 = false)
    (hf : ∀ {w a w'}, Reach E w → w.step E a = some w' → flag w' = true → flag w = true ∨ Does w a o)
    (h : StepsWithout E o w0 w) : flag w = false := by
  induction h with
  | refl => exact h0
  | step a h1 hs hd ih =>
    cases hx : flag _
    · rfl
    · rcases hf (h1.steps.reach hr) hs hx with h | h
      · rw [ih] at h; cases h
      · exact absurd h hd

end lemmas

/-- **C118.** After the start, and after each time the refresher looked for tokens which are due (it goes on from a wait
to `w1`), it looks again only if some thread wakes it, or after the time until which it planned to wait (`C16_refresher`
says which time that is). -/
theorem C118_refresher {w0 w1 w2 w3 : World} {s : Option Instant}
    (h0 : (∃ s, Reach E w0 ∧ w0.refPc = .wait s ∧ w0.step E .refresher = some w1) ∨ IsInit E w1)
    (hq : StepsWithout E .wakeRefresher w1 w2) (hw : w2.refPc = .wait s) (hs : w2.step E .refresher = some w3) :
    ∃ d, s = some d ∧ d < w2.now := by
  have hr1 : Reach E w1 ∧ w1.refPred = false := by
    rcases h0 with ⟨s0, hr, hp, h⟩ | h
    · refine ⟨.step _ hr h, ?_⟩
      have := (stepR_of_step hr.inv0.wf h).2
      generalize ha : Action.refresher = a at this
      cases this <;> cases ha <;> simp_all
    · exact ⟨.init h, h.refPred⟩
  have hf := hq.flag (flag := World.refPred) hr1.1 hr1.2
    fun hr hs => (flags_step (stepR_of_step hr.inv0.wf hs).2).1
  have := (stepR_of_step (hq.steps.reach hr1.1).inv0.wf hs).2
  generalize ha : Action.refresher = a at this
  cases this <;> cases ha <;> simp_all
  next h => simpa [waitOver_iff] using h

/-- **C118.** The same for the notifier. -/
theorem C118_notifier {w0 w1 w2 w3 : World} {s : Option Instant}
    (h0 : (∃ s, Reach E w0 ∧ w0.notPc = .wait s ∧ w0.step E .notifier = some w1) ∨ IsInit E w1)
    (hq : StepsWithout E .wakeNotifier w1 w2) (hw : w2.notPc = .wait s) (hs : w2.step E .notifier = some w3) :
    ∃ d, s = some d ∧ d < w2.now := by
  have hr1 : Reach E w1 ∧ w1.notPred = false := by
    rcases h0 with ⟨s0, hr, hp, h⟩ | h
    · refine ⟨.step _ hr h, ?_⟩
      have := (stepR_of_step hr.inv0.wf h).2
      generalize ha : Action.notifier = a at this
      cases this <;> cases ha <;> simp_all
    · exact ⟨.init h, h.notPred⟩
  have hf := hq.flag (flag := World.notPred) hr1.1 hr1.2
    fun hr hs => (flags_step (stepR_of_step hr.inv0.wf hs).2).2.1
  have := (stepR_of_step (hq.steps.reach hr1.1).inv0.wf hs).2
  generalize ha : Action.notifier = a at this
  cases this <;> cases ha <;> simp_all
  next h => simpa [waitOver_iff] using h

/-- **C118.** After the start, and after each time the eventer looked for events, it does not look again unless some
thread wakes it. -/
theorem C118_eventer {w0 w1 w2 : World}
    (h0 : (Reach E w0 ∧ w0.evPc = .wait ∧ w0.step E .eventer = some w1) ∨ IsInit E w1)
    (hq : StepsWithout E .wakeEventer w1 w2) (hw : w2.evPc = .wait) : w2.step E .eventer = none := by
  have hr1 : Reach E w1 ∧ w1.evPred = false := by
    rcases h0 with ⟨hr, hp, h⟩ | h
    · refine ⟨.step _ hr h, ?_⟩
      have := (stepR_of_step hr.inv0.wf h).2
      generalize ha : Action.eventer = a at this
      cases this <;> cases ha <;> simp_all
    · exact ⟨.init h, h.evPred⟩
  have hf := hq.flag (flag := World.evPred) hr1.1 hr1.2
    fun hr hs => (flags_step (stepR_of_step hr.inv0.wf hs).2).2.2
  cases hs : w2.step E .eventer with
  | none => rfl
  | some w3 =>
    exfalso
    have := (stepR_of_step (hq.steps.reach hr1.1).inv0.wf hs).2
    generalize ha : Action.eventer = a at this
    cases this <;> cases ha <;> simp_all

section Example
open Demo

/-- The refresher looks at a new token (it was woken), and plans to look again. -/
def sLooked : List Action := sToken ++ List.replicate 4 .refresher

/-- It waits 37 seconds. The eventer runs the command for the event, and waits then. -/
example : (w0.run env sLooked).isSome = true ∧ ((after sLooked).step env .refresher).isSome = false ∧
    ((after (sLooked ++ [.tick 37000000000])).step env .refresher).isSome = false ∧
    ((after (sLooked ++ [.tick 37000000001])).step env .refresher).isSome = true ∧
    (w0.run env (sLooked ++ List.replicate 5 .eventer)).isSome = true ∧
    ((after (sLooked ++ List.replicate 5 .eventer)).step env .eventer).isSome = false := by decide +kernel

end Example

end Pizauth

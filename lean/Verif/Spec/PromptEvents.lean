import Verif.Spec.Prompt

/-!
# Specification: executions in which the event thread is not kept waiting for long
-/

namespace Pizauth

/-- The thread which runs `token_event_cmd` gets its next turn within `δ` if it can do something all the time, and the
command never takes longer than `c` (in nanoseconds). -/
structure Run.PromptEvents {E : Env} (r : Run E) (δ c : Nat) : Prop where
  eventer : ∀ n, (∀ m, n ≤ m → (r.world m).now ≤ (r.world n).now + (δ : Int) →
      (r.world m).stepEventer ≠ none ∧ (r.world m).evPc ≠ .running) →
    ∃ m, n ≤ m ∧ (r.world m).now ≤ (r.world n).now + (δ : Int) ∧ r.action m = some .eventer
  command : ∀ n, (r.world n).evPc = .running →
    ∃ m, n ≤ m ∧ (r.world m).now ≤ (r.world n).now + (c : Int) ∧ r.action m = some .eventer

end Pizauth

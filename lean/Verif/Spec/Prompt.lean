import Verif.Spec.Fair

/-!
# Specification: executions in which nobody is kept waiting for long
-/

namespace Pizauth

/-- Operations which wait for something outside the daemon: the answer of a token server, the end of a command, or the
end of a pause. -/
def Op.waits : Op → Bool
  | .exAwait _ _ | .exSleep _ _ _ | .rfAwait _ | .rfCmdWait _ _ => true
  | _ => false

/-- The daemon keeps running, the clock does not jump by more than `δ` (in nanoseconds), and every thread which does
not wait for something outside gets its next turn within `δ`; the refresher and the notifier do, if they can do
something all the time. Nothing is assumed about clients, servers and commands, nor about the order of the turns, nor
how many there are at the same time. -/
structure Run.Prompt {E : Env} (r : Run E) (δ : Nat) : Prop where
  alive : ∀ n, (r.world n).proc = .running
  clock : ∀ n, (r.world (n + 1)).now ≤ (r.world n).now + (δ : Int)
  thread : ∀ n i op rest, (r.world n).threads i = op :: rest → op.waits = false →
    ∃ m, n ≤ m ∧ (r.world m).now ≤ (r.world n).now + (δ : Int) ∧ ∃ inp, r.action m = some (.run i inp)
  refresher : ∀ n, (∀ m, n ≤ m → (r.world m).now ≤ (r.world n).now + (δ : Int) → (r.world m).stepRefresher ≠ none) →
    ∃ m, n ≤ m ∧ (r.world m).now ≤ (r.world n).now + (δ : Int) ∧ r.action m = some .refresher
  notifier : ∀ n, (∀ m, n ≤ m → (r.world m).now ≤ (r.world n).now + (δ : Int) → (r.world m).stepNotifier E ≠ none) →
    ∃ m, n ≤ m ∧ (r.world m).now ≤ (r.world n).now + (δ : Int) ∧ r.action m = some .notifier

end Pizauth

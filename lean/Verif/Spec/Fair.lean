import Verif.Spec.Lineage

/-!
# Specification: infinite executions

What must happen eventually can only be said of infinite executions in which nobody is starved.
-/

namespace Pizauth

/-- An infinite execution of the daemon (`none`: a moment in which nothing happens). -/
structure Run (E : Env) where
  world : Nat → World
  action : Nat → Option Action
  start : Reach E (world 0)
  next : ∀ n,
    match action n with
    | some a => (world n).step E a = some (world (n + 1))
    | none => world (n + 1) = world n

/-- The daemon keeps running, its clock does not stop, and no thread is starved: every thread started by a request gets
its next turn (in particular, the requests it sends are answered, or time out, and the commands it runs end), and so
does each of the permanent threads as soon as it can do something. Nothing is assumed about what clients, servers and
commands do, nor about the order of the turns. -/
structure Run.Fair {E : Env} (r : Run E) : Prop where
  alive : ∀ n, (r.world n).proc = .running
  time : ∀ t : Instant, ∃ n, t ≤ (r.world n).now
  thread : ∀ n i, (r.world n).threads i ≠ [] → ∃ m, n ≤ m ∧ ∃ inp, r.action m = some (.run i inp)
  refresher : ∀ n, (∀ m, n ≤ m → (r.world m).stepRefresher ≠ none) → ∃ m, n ≤ m ∧ r.action m = some .refresher
  notifier : ∀ n, (∀ m, n ≤ m → (r.world m).stepNotifier E ≠ none) → ∃ m, n ≤ m ∧ r.action m = some .notifier
  eventer : ∀ n, (∀ m, n ≤ m → (r.world m).stepEventer ≠ none) → ∃ m, n ≤ m ∧ r.action m = some .eventer

end Pizauth

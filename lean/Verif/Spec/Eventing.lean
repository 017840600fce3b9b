import Verif.Model.Eventing
import Verif.Spec.PromptEvents

/-!
# Specification: the process which runs `token_event_cmd`
-/

namespace Pizauth

/-- The commands which were run for events (command, account, event), in order. -/
def eventCommands : Log → List (Instant × String × String × TokenEvent)
  | [] => []
  | (t, .eventCmd c n e) :: L => eventCommands L ++ [(t, c, n, e)]
  | _ :: L => eventCommands L

/-- A command has failed unless it has ended with exit code 0. -/
def EvEnd.failure : EvEnd → Bool
  | .exited (some 0) => false
  | _ => true

/-- `l` is what is to be logged when `cmd` has failed so. -/
inductive EventFailure (shell : Commands.Shell) (cmd : String) : EvEnd → String → Prop where
  /-- there is no shell -/
  | noShell : shell = none → EventFailure shell cmd (.notStarted "environment variable not found") "environment variable not found"
  | notStarted (m : String) : shell ≠ none →
    EventFailure shell cmd (.notStarted ("Couldn't execute '" ++ cmd ++ "': " ++ m)) ("Couldn't execute '" ++ cmd ++ "': " ++ m)
  | returned (n : Int) : n ≠ 0 → EventFailure shell cmd (.exited (some n)) ("'" ++ cmd ++ "' returned " ++ toString n)
  | signalled : EventFailure shell cmd (.exited none) ("'" ++ cmd ++ "' returned <Unknown exit code")
  | killed : EventFailure shell cmd .killed ("'" ++ cmd ++ "' exceeded timeout")
  | unwaitable (m : String) : EventFailure shell cmd (.unwaitable m) ("Waiting on '" ++ cmd ++ "' failed: " ++ m)

/-- What is written about one command. -/
def EvChild.about (c : EvChild) : Instant × String × String × TokenEvent := (c.since, c.cmd, c.act, c.event)

/-- There is no process, it has ended, or it has run for 30 seconds. -/
def EvChild.over (c : EvChild) (now : Instant) : Prop :=
  (∃ m, c.proc = .error m) ∨ c.exit ≠ none ∨ c.since + 30000000000 ≤ now

namespace Eventing

/-- An infinite execution. -/
structure Run (E : Env) (shell : Commands.Shell) where
  state : Nat → Eventing
  act : Nat → Option Act
  start : Reach E shell (state 0)
  next : ∀ n,
    match act n with
    | some a => (state n).step E shell a = some (state (n + 1))
    | none => state (n + 1) = state n

/-- The time in the `n`-th state. -/
abbrev Run.now {E : Env} {shell : Commands.Shell} (r : Run E shell) (n : Nat) : Instant := (r.state n).world.now

/-- The event thread gets its next turn within `δ`, if it can do something all the time; and time goes on while it waits.
Nothing is assumed about the commands. -/
structure Run.Turns {E : Env} {shell : Commands.Shell} (r : Run E shell) (δ : Nat) : Prop where
  time : ∀ n, (r.state n).child ≠ none → ∃ m, n ≤ m ∧ (r.now n + 30000000000 ≤ r.now m ∨ (r.state m).child = none)
  eventer : ∀ n, (∀ m, n ≤ m → r.now m ≤ r.now n + (δ : Int) →
      (r.state m).world.stepEventer ≠ none ∧ (r.state m).world.evPc ≠ .running) →
    ∃ m, n ≤ m ∧ r.now m ≤ r.now n + (δ : Int) ∧ (r.act m).bind Act.does = some .eventer
  over : ∀ n, (∀ m, n ≤ m → r.now m ≤ r.now n + (δ : Int) → ∃ c, (r.state m).child = some c ∧ c.over (r.now m)) →
    ∃ m, n ≤ m ∧ r.now m ≤ r.now n + (δ : Int) ∧ (r.act m).bind Act.does = some .eventer

end Eventing
end Pizauth

import Verif.Model.Probing
import Verif.Spec.Deadline
import Verif.Spec.Log

/-!
# Specification: the processes which run `transient_error_if_cmd`
-/

namespace Pizauth

/-- The commands which thread `i` has run (when, command, account), in order. -/
def probeCommands (i : Nat) : Log → List (Instant × String × String)
  | [] => []
  | (t, .transientCmd j c n) :: L => if j = i then probeCommands i L ++ [(t, c, n)] else probeCommands i L
  | _ :: L => probeCommands i L

/-- What became of the commands (when, thread, success), in order. -/
def verdicts : Log → List (Instant × Nat × Bool)
  | [] => []
  | (t, .transientCmdEnd i ok) :: L => verdicts L ++ [(t, i, ok)]
  | _ :: L => verdicts L

/-- What is written about one command. -/
def Probe.about (c : Probe) : Instant × String × String := (c.since, c.cmd, c.act)

/-- There is no process, it has ended, or it has run for three minutes. -/
def Probe.over (c : Probe) (now : Instant) : Prop := c.proc = none ∨ c.exit ≠ none ∨ c.since + 180000000000 ≤ now

/-- Does a thread wait for a command? -/
def Op.probes : Op → Bool
  | .rfCmdWait _ _ => true
  | _ => false

namespace Probing

/-- An infinite execution. -/
structure Run (E : Env) (shell : Commands.Shell) where
  state : Nat → Probing
  act : Nat → Option Act
  start : Reach E shell (state 0)
  next : ∀ n,
    match act n with
    | some a => (state n).step E shell a = some (state (n + 1))
    | none => state (n + 1) = state n

/-- The time in the `n`-th state. -/
abbrev Run.now {E : Env} {shell : Commands.Shell} (r : Run E shell) (n : Nat) : Instant := (r.state n).world.now

/-- Threads whose command is over get their next turn within `δ`; time goes on while they wait; and token servers answer
(or requests to them time out) within `T`. Nothing is assumed about the commands. -/
structure Run.Turns {E : Env} {shell : Commands.Shell} (r : Run E shell) (δ T : Nat) : Prop where
  time : ∀ n i, (r.state n).probes i ≠ none →
    ∃ m, n ≤ m ∧ (r.now n + 180000000000 ≤ r.now m ∨ (r.state m).probes i = none)
  over : ∀ n i, (∀ m, n ≤ m → r.now m ≤ r.now n + (δ : Int) → ∃ c, (r.state m).probes i = some c ∧ c.over (r.now m)) →
    ∃ m, n ≤ m ∧ r.now m ≤ r.now n + (δ : Int) ∧ (r.act m).bind Act.thread = some i
  servers : ∀ n i op rest, (r.state n).world.threads i = op :: rest → op.waits = true → op.probes = false →
    ∃ m, n ≤ m ∧ r.now m ≤ r.now n + (op.patience δ T 0 (r.now n) : Int) ∧ (r.act m).bind Act.thread = some i

end Probing
end Pizauth

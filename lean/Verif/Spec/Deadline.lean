import Verif.Spec.Prompt

/-!
# Specification: executions in which nobody outside is waited for for long
-/

namespace Pizauth

/-- How long a thread waits for the end of an operation, at the time `now`: requests to token servers are answered or time
out within `T`, commands end within `C`, and the end of a pause, like anything else, is noticed within `δ` (all in
nanoseconds). -/
def Op.patience (δ T C : Nat) (now : Instant) : Op → Nat
  | .exAwait _ _ | .rfAwait _ => T
  | .rfCmdWait _ _ => C
  | .exSleep _ _ t => (t - now).toNat + δ
  | _ => δ

/-- Threads get their turns within `δ`, token servers answer (or requests to them time out) within `T`, and
`transient_error_if_cmd` ends within `C`. -/
structure Run.Timely {E : Env} (r : Run E) (δ T C : Nat) : Prop where
  prompt : r.Prompt δ
  outside : ∀ n i op rest, (r.world n).threads i = op :: rest → op.waits = true →
    ∃ m, n ≤ m ∧ (r.world m).now ≤ (r.world n).now + (op.patience δ T C (r.world n).now : Int) ∧
      ∃ inp, r.action m = some (.run i inp)

end Pizauth

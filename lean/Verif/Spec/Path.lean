import Verif.Spec.Lineage

/-!
# Specification: executions along which something holds all the time
-/

namespace Pizauth

/-- `w` is reached from `w0` by steps, and `Q` holds in every state from `w0` to `w`. -/
inductive StepsWhile (E : Env) (Q : World → Prop) (w0 : World) : World → Prop where
  | refl : Q w0 → StepsWhile E Q w0 w0
  | step {w w' : World} (a : Action) : StepsWhile E Q w0 w → w.step E a = some w' → Q w' → StepsWhile E Q w0 w'

theorem StepsWhile.steps {E : Env} {Q : World → Prop} {w0 w : World} (h : StepsWhile E Q w0 w) : Steps E w0 w := by
  induction h with
  | refl _ => exact .refl
  | step a _ hs _ ih => exact .step a ih hs

theorem StepsWhile.last {E : Env} {Q : World → Prop} {w0 w : World} (h : StepsWhile E Q w0 w) : Q w := by
  cases h with
  | refl h => exact h
  | step _ _ _ h => exact h

theorem StepsWhile.first {E : Env} {Q : World → Prop} {w0 w : World} (h : StepsWhile E Q w0 w) : Q w0 := by
  induction h with
  | refl h => exact h
  | step _ _ _ _ ih => exact ih

end Pizauth

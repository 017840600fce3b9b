import Verif.Spec.Lineage

/-!
# Specification: threads which wait
-/

namespace Pizauth

/-- The action `a` is that some thread does `o`. -/
def Does (w : World) (a : Action) (o : Op) : Prop := ∃ i inp rest, a = .run i inp ∧ w.threads i = o :: rest

/-- A part of an execution in which no thread does `o`. -/
inductive StepsWithout (E : Env) (o : Op) (w0 : World) : World → Prop where
  | refl : StepsWithout E o w0 w0
  | step {w w' : World} (a : Action) : StepsWithout E o w0 w → w.step E a = some w' → ¬ Does w a o → StepsWithout E o w0 w'

end Pizauth

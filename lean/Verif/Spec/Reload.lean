import Verif.Model.World
import Verif.Spec.Security

/-!
# Specification: reloading the configuration
-/

namespace Pizauth

/-- The step from `w` to `w'` replaces the configuration by `c`. -/
structure Reloads (E : Env) (w : World) (c : Config) (w' : World) : Prop where
  reach : Reach E w
  step : ∃ act, w.step E act = some w'
  obs : ∃ t, w'.log = (t, .reloaded c) :: w.log

/-- Going from `old` to `new`, account `n` is changed in a security-relevant way (or is new, or is removed). -/
def SecChanged (old new : Config) (n : String) : Prop :=
  ∀ a a', old.get? n = some a → new.get? n = some a' → ¬ SameSec a a'

end Pizauth

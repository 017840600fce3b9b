import Verif.Model.Prelude

/-!
# Specification: times which are about the same
-/

namespace Pizauth

/-- `a` and `b` differ by at most `δ`. -/
def Near (δ : Dur) (a b : Int) : Prop := a - b ≤ δ ∧ b - a ≤ δ

namespace Clock

/-- Two answers of a function which may panic, find no time, or find one: either both do the same, or the second time is
the later one, by at most `e`. -/
def Follows (e : Int) : Option (Option Instant) → Option (Option Instant) → Prop
  | none, none => True
  | some none, some none => True
  | some (some t), some (some t') => t ≤ t' ∧ t' - t ≤ e
  | _, _ => False

end Clock

end Pizauth

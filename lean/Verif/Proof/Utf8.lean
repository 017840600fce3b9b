import Verif.Model.Prelude

/-!
# Strings and their bytes
-/

namespace Pizauth

theorem utf8_append (s t : String) : utf8 (s ++ t) = utf8 s ++ utf8 t := by
  simp [utf8, String.toByteArray_append]

theorem utf8_inj {s t : String} (h : utf8 s = utf8 t) : s = t := by
  apply String.toByteArray_inj.mp
  unfold utf8 at h
  have := Array.toList_inj.mp h
  cases hs : s.toByteArray
  cases ht : t.toByteArray
  rw [hs, ht] at this
  simpa using this

theorem utf8_empty : utf8 "" = [] := by
  decide +kernel

theorem fromUtf8_utf8 (s : String) : fromUtf8 (utf8 s) = some s := by
  unfold fromUtf8 utf8
  simp only [String.fromUTF8?, Array.toArray_toList]
  rw [dif_pos s.isValidUTF8]
  rfl

theorem utf8_of_fromUtf8 {b : Bytes} {s : String} (h : fromUtf8 b = some s) : utf8 s = b := by
  unfold fromUtf8 String.fromUTF8? at h
  split at h
  · cases h
    rfl
  · cases h

/-- Strings with different first characters have different bytes. -/
theorem utf8_ne_prefix {s t : String} (s' t' : String) (h : utf8 s ≠ (utf8 t).take (utf8 s).length)
    (hlen : (utf8 s).length ≤ (utf8 t).length) : utf8 (s ++ s') ≠ utf8 (t ++ t') := by
  intro he
  rw [utf8_append, utf8_append] at he
  apply h
  have := congrArg (List.take (utf8 s).length) he
  rwa [List.take_left, List.take_append_of_le_length hlen] at this

end Pizauth

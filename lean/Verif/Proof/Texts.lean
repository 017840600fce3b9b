import Verif.Model.Config
import Verif.Model.Http
import Verif.Model.Syntax
import Verif.Spec.Texts

/-!
# The functions on texts do what the specification says
-/

namespace Pizauth

theorem startsWith_iff {s pre : String} : startsWith s pre = true ↔ BeginsWith s pre := by
  rw [startsWith, List.isPrefixOf_iff_prefix]
  constructor
  · rintro ⟨r, h⟩
    exact ⟨String.ofList r, String.toList_inj.mp (by simp [h])⟩
  · rintro ⟨r, rfl⟩
    exact ⟨r.toList, by simp⟩

theorem startsWith_false {s pre : String} : startsWith s pre = false ↔ ¬ BeginsWith s pre := by
  rw [← startsWith_iff]; simp

theorem startsLower_iff {s pre : String} : startsWith (toLowercase s) pre = true ↔ BeginsLike s pre := by
  rw [startsWith_iff, BeginsWith, BeginsLike, toLowercase]
  constructor
  · rintro ⟨r, h⟩
    have h' : s.toList.map Char.toLower = pre.toList ++ r.toList := by
      have := congrArg String.toList h
      simpa using this
    obtain ⟨l1, l2, h1, h2, h3⟩ := List.map_eq_append_iff.mp h'
    exact ⟨l1, l2, h1, h2⟩
  · rintro ⟨p, r, h1, h2⟩
    exact ⟨String.ofList (r.map Char.toLower), String.toList_inj.mp (by simp [h1, h2])⟩

theorem isHttpUri_iff {E : Env} {s : String} : E.isHttpUri s = true ↔ IsHttpUri E s := by
  unfold Env.isHttpUri IsHttpUri
  cases E.parseUrl s <;> simp

theorem isRustWs_iff {c : Char} : isRustWs c = true ↔ IsBlankChar c := by
  simp only [isRustWs, IsBlankChar, Bool.or_eq_true, Bool.and_eq_true, decide_eq_true_eq, List.mem_cons, List.not_mem_nil, or_false]
  omega

theorem isDigit09_iff {c : Char} : isDigit09 c = true ↔ c ∈ "0123456789".toList := by
  rw [(by decide +kernel : "0123456789".toList = ['0', '1', '2', '3', '4', '5', '6', '7', '8', '9'])]
  simp only [isDigit09, Bool.and_eq_true, decide_eq_true_eq, List.mem_cons, List.not_mem_nil, or_false]
  simp only [Char.le_def, ← Char.toNat_inj, UInt32.le_iff_toNat_le]
  show (48 ≤ c.toNat ∧ c.toNat ≤ 57) ↔ (c.toNat = 48 ∨ c.toNat = 49 ∨ c.toNat = 50 ∨ c.toNat = 51 ∨ c.toNat = 52 ∨ c.toNat = 53 ∨ c.toNat = 54 ∨ c.toNat = 55 ∨ c.toNat = 56 ∨ c.toNat = 57)
  omega

end Pizauth

import Verif.Model.Env

/-!
# Specification: texts
-/

namespace Pizauth

/-- `s` begins with `pre`. -/
def BeginsWith (s pre : String) : Prop := ∃ r : String, s = pre ++ r

/-- `s` begins with `pre` (which has no capital letters), in upper or lower case. -/
def BeginsLike (s pre : String) : Prop := ∃ p r, s.toList = p ++ r ∧ p.map Char.toLower = pre.toList

/-- `s` is a URL, and its scheme is http or https. -/
def IsHttpUri (E : Env) (s : String) : Prop := ∃ u, E.parseUrl s = some u ∧ (u.scheme = "http" ∨ u.scheme = "https")

/-- The characters which Unicode calls white space (property White_Space). -/
def IsBlankChar (c : Char) : Prop :=
  c.toNat ∈ [0x9, 0xA, 0xB, 0xC, 0xD, 0x20, 0x85, 0xA0, 0x1680, 0x2000, 0x2001, 0x2002, 0x2003, 0x2004, 0x2005, 0x2006,
    0x2007, 0x2008, 0x2009, 0x200A, 0x2028, 0x2029, 0x202F, 0x205F, 0x3000]

end Pizauth

import Verif.Spec.Form

/-!
# Specification: how queries are read

`Verif.Spec.Form` says which texts are forms. A browser can be made to send something else: here is what any query is
read as (URL Standard, section 5.1; Unicode Standard, section 3.9, "U+FFFD Substitution of Maximal Subparts").
-/

namespace Pizauth
namespace FormSpec

/-- `Unescaped t bs`: `bs` is what remains of the text `t` if escapes are replaced. A `%` which is not followed by two
hexadecimal digits stands for itself. -/
inductive Unescaped : Bytes → Bytes → Prop where
  | nil : Unescaped [] []
  | plain {b : UInt8} {t bs : Bytes} : b ≠ 37 → b ≠ 43 → Unescaped t bs → Unescaped (b :: t) (b :: bs)
  | blank {t bs : Bytes} : Unescaped t bs → Unescaped (43 :: t) (32 :: bs)
  | escape {x y : UInt8} {h l : Nat} {t bs : Bytes} : Hex x h → Hex y l → Unescaped t bs →
      Unescaped (37 :: x :: y :: t) (UInt8.ofNat (16 * h + l) :: bs)
  | percent {t bs : Bytes} : (¬ ∃ x y h l r, t = x :: y :: r ∧ Hex x h ∧ Hex y l) → Unescaped t bs →
      Unescaped (37 :: t) (37 :: bs)

/-- The bytes `b` are the beginning of a character, but not all of it. -/
def Begins (b : Bytes) : Prop := ∃ c r, r ≠ [] ∧ String.utf8EncodeChar c = b ++ r

/-- `Text bs l`: the bytes `bs` are read as the characters `l`. Where there is no character, the longest beginning of a
character (or one byte, if no character begins like this) is read as U+FFFD. -/
inductive Text : Bytes → List Char → Prop where
  | nil : Text [] []
  | char {c : Char} {r : Bytes} {l : List Char} : Text r l → Text (String.utf8EncodeChar c ++ r) (c :: l)
  | bad {b r : Bytes} {l : List Char} : (∀ c, ¬ String.utf8EncodeChar c <+: b ++ r) → b ≠ [] → (Begins b ∨ b.length = 1) →
      (∀ p, p <+: b ++ r → Begins p → p.length ≤ b.length) → Text r l → Text (b ++ r) ('�' :: l)

/-- The text `t` is read as `s`. -/
def Reads (t : Bytes) (s : String) : Prop := ∃ bs, Unescaped t bs ∧ Text bs s.toList

/-- One piece of a query: the name goes up to the first `=`; if there is none, the value is empty. -/
inductive Piece : Bytes → String × String → Prop where
  | both {tn tv : Bytes} {n v : String} : 61 ∉ tn → Reads tn n → Reads tv v → Piece (tn ++ 61 :: tv) (n, v)
  | name {tn : Bytes} {n : String} : 61 ∉ tn → Reads tn n → Piece tn (n, "")

/-- `Query t ps`: the query `t` has the names and values `ps`. -/
inductive Query : Bytes → List (String × String) → Prop where
  | nil : Query [] []
  /-- the last piece -/
  | last {t : Bytes} {p : String × String} : t ≠ [] → 38 ∉ t → Piece t p → Query t [p]
  | cons {t r : Bytes} {p : String × String} {ps : List (String × String)} : t ≠ [] → 38 ∉ t → Piece t p → Query r ps →
      Query (t ++ 38 :: r) (p :: ps)
  /-- an empty piece -/
  | empty {r : Bytes} {ps : List (String × String)} : Query r ps → Query (38 :: r) ps

end FormSpec
end Pizauth

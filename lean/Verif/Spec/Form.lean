import Verif.Model.Prelude

/-!
# Specification: forms (RFC 6749, appendix B; HTML, `application/x-www-form-urlencoded`)

What a server makes of a form, and which texts are forms. Independent of `Verif.Model.Form`.
-/

namespace Pizauth
namespace FormSpec

/-- Hexadecimal digits, upper and lower case. -/
inductive Hex : UInt8 → Nat → Prop where
  | dig (n : Nat) : n < 10 → Hex (UInt8.ofNat (48 + n)) n
  | upper (n : Nat) : 10 ≤ n → n < 16 → Hex (UInt8.ofNat (55 + n)) n
  | lower (n : Nat) : 10 ≤ n → n < 16 → Hex (UInt8.ofNat (87 + n)) n

/-- `Enc bs t`: the text `t` stands for the bytes `bs`. A byte may be escaped or not; `%`, `+` and `&` must be. -/
inductive Enc : Bytes → Bytes → Prop where
  | nil : Enc [] []
  | plain {b : UInt8} {bs t : Bytes} : b ≠ 37 → b ≠ 43 → b ≠ 38 → Enc bs t → Enc (b :: bs) (b :: t)
  | blank {bs t : Bytes} : Enc bs t → Enc (32 :: bs) (43 :: t)
  | escape {x y : UInt8} {h l : Nat} {bs t : Bytes} : Hex x h → Hex y l → Enc bs t →
      Enc (UInt8.ofNat (16 * h + l) :: bs) (37 :: x :: y :: t)

/-- `IsForm ps t`: the text `t` is a form with the names and values `ps`, in this order. (Values may have unescaped `=`.) -/
inductive IsForm : List (String × String) → Bytes → Prop where
  | nil : IsForm [] []
  | one {n v : String} {tn tv : Bytes} : Enc (utf8 n) tn → 61 ∉ tn → Enc (utf8 v) tv → IsForm [(n, v)] (tn ++ 61 :: tv)
  | cons {n v : String} {tn tv t : Bytes} {p : String × String} {ps : List (String × String)} :
      Enc (utf8 n) tn → 61 ∉ tn → Enc (utf8 v) tv → IsForm (p :: ps) t →
      IsForm ((n, v) :: p :: ps) (tn ++ 61 :: tv ++ 38 :: t)

/-- Bytes which have no special meaning in a URL or in an HTTP message: letters, digits, `* - . _ + % = &`. -/
def Harmless (b : UInt8) : Prop :=
  (48 ≤ b.toNat ∧ b.toNat ≤ 57) ∨ (65 ≤ b.toNat ∧ b.toNat ≤ 90) ∨ (97 ≤ b.toNat ∧ b.toNat ≤ 122) ∨
    b ∈ "*-._+%=&".toList.map (fun c => UInt8.ofNat c.toNat)

end FormSpec
end Pizauth

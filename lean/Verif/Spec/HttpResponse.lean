import Verif.Model.Prelude

/-!
# Specification: HTTP responses (RFC 9112, sections 2.1 and 4)
-/

namespace Pizauth
namespace HttpSpec

/-- Carriage return and line feed. -/
def crlf : Bytes := [13, 10]

/-- The three digits of a status code. -/
def Code (n : Nat) (t : Bytes) : Prop :=
  ∃ x y z, 1 ≤ x ∧ x < 10 ∧ y < 10 ∧ z < 10 ∧ n = 100 * x + 10 * y + z ∧
    t = [UInt8.ofNat (48 + x), UInt8.ofNat (48 + y), UInt8.ofNat (48 + z)]

/-- `Response n b`: the bytes `b` are a response with status code `n`. The status line is the version, a blank, the code,
a blank, and a reason, which may be empty; there follow fields, an empty line, and the body. -/
def Response (n : Nat) (b : Bytes) : Prop :=
  ∃ (code reason : Bytes) (fields : List Bytes) (body : Bytes), Code n code ∧ (∀ x ∈ reason, x ≠ 13 ∧ x ≠ 10) ∧
    (∀ f ∈ fields, f ≠ [] ∧ ∀ x ∈ f, x ≠ 13 ∧ x ≠ 10) ∧
    b = utf8 "HTTP/1.1 " ++ code ++ utf8 " " ++ reason ++ crlf ++ (fields.map (· ++ crlf)).flatten ++ crlf ++ body

end HttpSpec
end Pizauth

import Verif.Model.Prelude

/-!
# base64 `URL_SAFE_NO_PAD` (used in src/server/request_token.rs:25,29,32)
-/

namespace Pizauth

/-- The URL-safe base64 alphabet (RFC 4648 §5), indexed by a sextet. -/
def b64Alphabet : List Char :=
  "ABCDEFGHIJKLMNOPQRSTUVWXYZabcdefghijklmnopqrstuvwxyz0123456789-_".toList

/-- Character for a sextet. The argument is always `< 64` in `b64Enc`, src/server/request_token.rs:25,29,32. -/
def b64Char (n : Nat) : Char := b64Alphabet.getD n 'A'

/-- `URL_SAFE_NO_PAD.encode`, on byte lists: groups of three bytes become four characters; one or two
trailing bytes become two or three characters and no padding is written, src/server/request_token.rs:25,29,32. -/
def b64Enc : Bytes → List Char
  | [] => []
  | [a] =>
    [b64Char (a.toNat / 4), b64Char (a.toNat % 4 * 16)]
  | [a, b] =>
    [b64Char (a.toNat / 4), b64Char (a.toNat % 4 * 16 + b.toNat / 16),
     b64Char (b.toNat % 16 * 4)]
  | a :: b :: c :: r =>
    b64Char (a.toNat / 4) :: b64Char (a.toNat % 4 * 16 + b.toNat / 16) ::
    b64Char (b.toNat % 16 * 4 + c.toNat / 64) :: b64Char (c.toNat % 64) :: b64Enc r

/-- `URL_SAFE_NO_PAD.encode` as a `String`, src/server/request_token.rs:25,29,32. -/
def b64 (b : Bytes) : String := String.ofList (b64Enc b)

end Pizauth

import Verif.Model.Prelude

/-!
# Specification: base64 (RFC 4648, sections 4 and 5)

The bits of all bytes in a row, the most significant one of each byte first, are cut into groups of six, the last of which
is filled up with zeros. Each group, read as a number, is the index of a character.
-/

namespace Pizauth.Base64

def bits (b : UInt8) : List Bool := [7, 6, 5, 4, 3, 2, 1, 0].map b.toNat.testBit

/-- The number which bits denote, the most significant one first. -/
def value (l : List Bool) : Nat := l.foldl (fun n b => 2 * n + b.toNat) 0

def groups : List Bool → List (List Bool)
  | [] => []
  | a :: b :: c :: d :: e :: f :: r => [a, b, c, d, e, f] :: groups r
  | l => [l ++ List.replicate (6 - l.length) false]

/-- RFC 4648, table 2 -/
def letter (n : Nat) : Char :=
  if n < 26 then .ofNat ('A'.toNat + n)
  else if n < 52 then .ofNat ('a'.toNat + (n - 26))
  else if n < 62 then .ofNat ('0'.toNat + (n - 52))
  else if n = 62 then '-' else '_'

def text (l : List UInt8) : String := .ofList ((groups (l.flatMap bits)).map fun g => letter (value g))

end Pizauth.Base64

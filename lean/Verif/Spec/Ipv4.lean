import Verif.Spec.Ipv6

/-!
# Specification: IPv4 addresses as the URL standard reads them

<https://url.spec.whatwg.org/#concept-ipv4-parser>. An address is a number below 2³².
-/

namespace Pizauth
namespace Ip

/-- Digits to the base `b` and their value. -/
inductive Numeral (b : Nat) : List Char → Nat → Prop where
  | nil : Numeral b [] 0
  | cons {c : Char} {d : Nat} {t : List Char} {n : Nat} : HexDigitOf c d → d < b → Numeral b t n →
    Numeral b (c :: t) (d * b ^ t.length + n)

/-- A number in an address: hexadecimal after `0x`, octal after `0`, decimal otherwise. -/
inductive Part : List Char → Nat → Prop where
  | hex {c : Char} {t : List Char} {n : Nat} : c = 'x' ∨ c = 'X' → Numeral 16 t n → Part ('0' :: c :: t) n
  | octal {t : List Char} {n : Nat} : Numeral 8 t n → Part ('0' :: t) n
  | decimal {c : Char} {t : List Char} {n : Nat} : c ≠ '0' → Numeral 10 (c :: t) n → Part (c :: t) n

/-- Numbers with dots between them. -/
inductive Numbers : List Char → List Nat → Prop where
  | one {t : List Char} {n : Nat} : Part t n → Numbers t [n]
  | cons {t r : List Char} {n : Nat} {ns : List Nat} : Part t n → Numbers r ns → Numbers (t ++ '.' :: r) (n :: ns)

/-- The address which one to four numbers stand for: the last of them is for all the bytes which are left. -/
inductive Address : List Nat → Nat → Prop where
  | one {a : Nat} : a < 4294967296 → Address [a] a
  | two {a b : Nat} : a < 256 → b < 16777216 → Address [a, b] (a * 16777216 + b)
  | three {a b c : Nat} : a < 256 → b < 256 → c < 65536 → Address [a, b, c] (a * 16777216 + b * 65536 + c)
  | four {a b c d : Nat} : a < 256 → b < 256 → c < 256 → d < 256 →
    Address [a, b, c, d] (a * 16777216 + b * 65536 + c * 256 + d)

/-- The texts of an IPv4 address. There may be a dot at the end. -/
def V4 (t : List Char) (n : Nat) : Prop :=
  ∃ u ns, (t = u ∨ t = u ++ ['.']) ∧ Numbers u ns ∧ Address ns n

/-- Texts which have to be IPv4 addresses: the last thing between dots is a number, or looks like a decimal one. -/
def Numeric (t : List Char) : Prop :=
  ∃ l u, (l = [] ∨ l.getLast? = some '.') ∧ (t = l ++ u ∨ t = l ++ u ++ ['.']) ∧ u ≠ [] ∧
    ((∀ c ∈ u, c ∈ "0123456789".toList) ∨ ∃ n, Part u n)

/-- A domain in ASCII, with nothing in it which is special in URLs or in international domains. -/
def AsciiDomain (t : List Char) : Prop :=
  t ≠ [] ∧ (∀ c ∈ t, 32 < c.toNat ∧ c.toNat < 127 ∧ c ∉ "#/:<>?@[\\]^|%".toList) ∧
    ∀ l r, (l = [] ∨ l.getLast? = some '.') → t = l ++ r → (r.map Char.toLower).take 4 ≠ "xn--".toList

end Ip
end Pizauth

import Verif.Spec.UrlStd

/-!
# Specification: texts of IPv6 addresses

RFC 4291, section 2.2, and RFC 5952, section 4. An address is a list of eight numbers below 65536.
-/

namespace Pizauth
namespace Ip

/-- `c` is a hexadecimal digit, with the value `d`. -/
def HexDigitOf (c : Char) (d : Nat) : Prop :=
  "0123456789abcdef".toList[d]? = some c ∨ "0123456789ABCDEF".toList[d]? = some c

/-- Hexadecimal digits and their value. -/
inductive HexNumber : List Char → Nat → Prop where
  | nil : HexNumber [] 0
  | cons {c : Char} {d : Nat} {t : List Char} {n : Nat} : HexDigitOf c d → HexNumber t n →
    HexNumber (c :: t) (d * 16 ^ t.length + n)

/-- One to four hexadecimal digits. -/
def Group (t : List Char) (n : Nat) : Prop := HexNumber t n ∧ 1 ≤ t.length ∧ t.length ≤ 4

/-- Groups with colons between them. -/
inductive Groups : List Char → List Nat → Prop where
  | one {t : List Char} {n : Nat} : Group t n → Groups t [n]
  | cons {t r : List Char} {n : Nat} {ns : List Nat} : Group t n → Groups r ns → Groups (t ++ ':' :: r) (n :: ns)

/-- An IPv4 address in decimal. -/
def Dotted (t : List Char) (a b c d : Nat) : Prop :=
  t = (toString a ++ "." ++ toString b ++ "." ++ toString c ++ "." ++ toString d).toList ∧
    a < 256 ∧ b < 256 ∧ c < 256 ∧ d < 256

/-- Groups of which the last two may be written as an IPv4 address. -/
def Ending (t : List Char) (ns : List Nat) : Prop :=
  Groups t ns ∨
  (∃ a b c d, Dotted t a b c d ∧ ns = [a * 256 + b, c * 256 + d]) ∨
  ∃ l u xs a b c d, Groups l xs ∧ Dotted u a b c d ∧ t = l ++ ':' :: u ∧ ns = xs ++ [a * 256 + b, c * 256 + d]

/-- The texts of an address: all groups, or some of them and `::` for one or more groups which are zero. -/
def Text (t : List Char) (a : List Nat) : Prop :=
  a.length = 8 ∧
  (Ending t a ∨
    ∃ l r xs ys k, t = l ++ "::".toList ++ r ∧ a = xs ++ List.replicate k 0 ++ ys ∧ 1 ≤ k ∧
      ((l = [] ∧ xs = []) ∨ Groups l xs) ∧ ((r = [] ∧ ys = []) ∨ Ending r ys))

/-- `n` zeros from piece `s` on. -/
def Zeros (a : List Nat) (s n : Nat) : Prop := s + n ≤ a.length ∧ ∀ i, s ≤ i → i < s + n → a[i]? = some 0

/-- Numbers in hexadecimal, in lower case and without leading zeros, with colons between them. -/
def Plain (ns : List Nat) : List Char := [':'].intercalate (ns.map (Nat.toDigits 16))

/-- The recommended text of an address: `::` for the first of the longest sequences of at least two zeros. -/
def Recommended (a : List Nat) (t : List Char) : Prop :=
  ((∀ s n, Zeros a s n → n < 2) ∧ t = Plain a) ∨
  ∃ s n, 2 ≤ n ∧ Zeros a s n ∧ (∀ s' n', Zeros a s' n' → n' < n ∨ (n' = n ∧ s ≤ s')) ∧
    t = Plain (a.take s) ++ "::".toList ++ Plain (a.drop (s + n))

end Ip
end Pizauth

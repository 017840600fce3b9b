import Verif.Model.Json

/-!
# Specification: JSON texts (RFC 8259)
-/

namespace Pizauth.JsonSpec
open Json (Item)

def Ws (w : List Char) : Prop := ∀ c ∈ w, c = ' ' ∨ c = '\n' ∨ c = '\t' ∨ c = '\r'

def Digits (ds : List Char) : Prop := ds ≠ [] ∧ ∀ c ∈ ds, '0' ≤ c ∧ c ≤ '9'

/-- `0`, or digits which do not begin with `0`. -/
def Int (i : List Char) : Prop := i = ['0'] ∨ (Digits i ∧ i.head? ≠ some '0')

def Frac (f : List Char) : Prop := f = [] ∨ ∃ ds, Digits ds ∧ f = '.' :: ds

def Exp (e : List Char) : Prop :=
  e = [] ∨ ∃ c sign ds, (c = 'e' ∨ c = 'E') ∧ (sign = [] ∨ sign = ['+'] ∨ sign = ['-']) ∧ Digits ds ∧
    e = c :: (sign ++ ds)

/-- The text of a number. -/
inductive Number : List Char → Prop where
  | mk {sign i f e : List Char} : sign = [] ∨ sign = ['-'] → Int i → Frac f → Exp e → Number (sign ++ i ++ f ++ e)

/-- The value of decimal digits. -/
def decimal : List Char → Nat
  | [] => 0
  | c :: cs => (c.toNat - '0'.toNat) * 10 ^ cs.length + decimal cs

/-- Number and hexadecimal digit. -/
def HexDigit (c : Char) (v : Nat) : Prop :=
  "0123456789abcdef".toList[v]? = some c ∨ "0123456789ABCDEF".toList[v]? = some c

def Hex4 (t : List Char) (n : Nat) : Prop :=
  ∃ a b c d x y z u, t = [a, b, c, d] ∧ HexDigit a x ∧ HexDigit b y ∧ HexDigit c z ∧ HexDigit d u ∧
    n = x * 16 ^ 3 + y * 16 ^ 2 + z * 16 + u

/-- What may follow a backslash, and what it stands for. -/
inductive Esc : List Char → Char → Prop where
  | quote : Esc ['"'] '"'
  | backslash : Esc ['\\'] '\\'
  | slash : Esc ['/'] '/'
  | b : Esc ['b'] '\x08'
  | f : Esc ['f'] '\x0c'
  | n : Esc ['n'] '\x0a'
  | r : Esc ['r'] '\x0d'
  | t : Esc ['t'] '\x09'
  | u {t : List Char} {n : Nat} : Hex4 t n → n < 0xD800 ∨ 0xDFFF < n → Esc ('u' :: t) (Char.ofNat n)
  /-- a surrogate pair -/
  | pair {t t' : List Char} {n m : Nat} : Hex4 t n → 0xD800 ≤ n → n ≤ 0xDBFF → Hex4 t' m → 0xDC00 ≤ m → m ≤ 0xDFFF →
      Esc ('u' :: (t ++ '\\' :: 'u' :: t')) (Char.ofNat (0x10000 + (n - 0xD800) * 0x400 + (m - 0xDC00)))

/-- The value and the text of a string, without its quotes. -/
inductive Str : List Char → List Char → Prop where
  | nil : Str [] []
  | plain {c : Char} {v t : List Char} : 32 ≤ c.toNat → c ≠ '"' → c ≠ '\\' → Str v t → Str (c :: v) (c :: t)
  | esc {c : Char} {e v t : List Char} : Esc e c → Str v t → Str (c :: v) ('\\' :: (e ++ t))

/-- The text of a value in which lists and objects are nested at most `d` deep, and the texts of what is between the
brackets of lists and objects which are not empty. -/
inductive Text : Nat → Item → List Char → Prop where
  | null {d : Nat} : Text d (.val .null) ['n', 'u', 'l', 'l']
  | true {d : Nat} : Text d (.val (.bool true)) ['t', 'r', 'u', 'e']
  | false {d : Nat} : Text d (.val (.bool false)) ['f', 'a', 'l', 's', 'e']
  | nat {d : Nat} {t : List Char} : Int t → decimal t < 2 ^ 64 → Text d (.val (.nat (decimal t))) t
  | num {d : Nat} {t : List Char} : Number t → ¬ (Int t ∧ decimal t < 2 ^ 64) → Text d (.val (.num t)) t
  | str {d : Nat} {v t : List Char} : Str v t → Text d (.val (.str v)) ('"' :: (t ++ ['"']))
  | arr0 {d : Nat} {w : List Char} : Ws w → Text (d + 1) (.val (.arr [])) ('[' :: (w ++ [']']))
  | arr {d : Nat} {js : List Json} {t : List Char} : Text d (.elems js) t → Text (d + 1) (.val (.arr js)) ('[' :: (t ++ [']']))
  | obj0 {d : Nat} {w : List Char} : Ws w → Text (d + 1) (.val (.obj [])) ('{' :: (w ++ ['}']))
  | obj {d : Nat} {kvs : List (List Char × Json)} {t : List Char} : Text d (.members kvs) t →
      Text (d + 1) (.val (.obj kvs)) ('{' :: (t ++ ['}']))
  | elem {d : Nat} {j : Json} {w1 t w2 : List Char} : Ws w1 → Text d (.val j) t → Ws w2 →
      Text d (.elems [j]) (w1 ++ t ++ w2)
  | elems {d : Nat} {j : Json} {js : List Json} {w1 t w2 ts : List Char} : Ws w1 → Text d (.val j) t → Ws w2 →
      Text d (.elems js) ts → Text d (.elems (j :: js)) (w1 ++ t ++ w2 ++ ',' :: ts)
  | member {d : Nat} {k kt : List Char} {j : Json} {w1 w2 w3 t w4 : List Char} : Ws w1 → Str k kt → Ws w2 → Ws w3 →
      Text d (.val j) t → Ws w4 → Text d (.members [(k, j)]) (w1 ++ '"' :: (kt ++ '"' :: (w2 ++ ':' :: (w3 ++ t ++ w4))))
  | members {d : Nat} {k kt : List Char} {j : Json} {kvs : List (List Char × Json)} {w1 w2 w3 t w4 ts : List Char} :
      Ws w1 → Str k kt → Ws w2 → Ws w3 → Text d (.val j) t → Ws w4 → Text d (.members kvs) ts →
      Text d (.members ((k, j) :: kvs)) (w1 ++ '"' :: (kt ++ '"' :: (w2 ++ ':' :: (w3 ++ t ++ w4 ++ ',' :: ts))))

/-- `s` is a JSON text for `j`, nested at most `d` deep. -/
def IsText (d : Nat) (j : Json) (s : List Char) : Prop :=
  ∃ w1 t w2, Ws w1 ∧ Text d (.val j) t ∧ Ws w2 ∧ s = w1 ++ t ++ w2

end Pizauth.JsonSpec

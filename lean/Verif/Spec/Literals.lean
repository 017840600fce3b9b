import Verif.Model.Prelude

/-!
# Specification: literals in the configuration file
-/

namespace Pizauth

/-- Put a backslash before quotes and backslashes. -/
def escapeChars : List Char → List Char
  | [] => []
  | c :: r => if c = '"' ∨ c = '\\' then '\\' :: c :: escapeChars r else c :: escapeChars r

/-- The literal for a string. -/
def quoteChars (s : List Char) : List Char := '"' :: (escapeChars s ++ ['"'])

/-- The literal for a string. -/
def quoteStr (s : String) : String := String.ofList (quoteChars s.toList)

/-- The seconds denoted by a unit. -/
def unitSecs (c : Char) : Option Nat :=
  if c = 's' then some 1 else if c = 'm' then some 60 else if c = 'h' then some 3600
  else if c = 'd' then some 86400 else none

/-- The value of a digit. -/
def digitVal (c : Char) : Nat := c.toNat - '0'.toNat

/-- The number denoted by a sequence of digits, the last one being the least significant. -/
def numberOf : List Char → Nat
  | [] => 0
  | c :: r => digitVal c * 10 ^ r.length + numberOf r

end Pizauth

import Verif.Model.Prelude

/-!
# Specification: the text of a query

As in HTML, `application/x-www-form-urlencoded`. Independent of `Verif.Model.Form`.
-/

namespace Pizauth

/-- The characters which stand for themselves. -/
def queryPlain : String := "ABCDEFGHIJKLMNOPQRSTUVWXYZabcdefghijklmnopqrstuvwxyz0123456789*-._"

/-- One byte: itself, `+` for a blank, or `%` and two hexadecimal digits. -/
def queryByte (b : UInt8) : List Char :=
  if Char.ofNat b.toNat ∈ queryPlain.toList then [Char.ofNat b.toNat]
  else if b = 32 then ['+']
  else '%' :: ("0123456789ABCDEF".toList[b.toNat / 16]?.toList ++ "0123456789ABCDEF".toList[b.toNat % 16]?.toList)

/-- A name or a value in a query. -/
def queryWord (s : String) : String := String.ofList ((utf8 s).flatMap queryByte)

/-- A query with the names and values `ps`. -/
def queryOf (ps : List (String × String)) : String :=
  "&".intercalate (ps.map fun p => queryWord p.1 ++ "=" ++ queryWord p.2)

end Pizauth

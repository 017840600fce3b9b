import Verif.Model.Boot

/-!
# Specification: starting a server
-/

namespace Pizauth

/-- The hexadecimal digit for `n` (less than 16). -/
def HexDigit (n : Nat) (c : Char) : Prop := "0123456789ABCDEF".toList[n]? = some c

/-- `t` is the bytes in hexadecimal, two digits each, separated by colons. -/
inductive HexText : Bytes → List Char → Prop
  | nil : HexText [] []
  | one {b : UInt8} {c d : Char} : HexDigit (b.toNat / 16) c → HexDigit (b.toNat % 16) d → HexText [b] [c, d]
  | cons {b b' : UInt8} {bs : Bytes} {c d : Char} {t : List Char} : HexDigit (b.toNat / 16) c → HexDigit (b.toNat % 16) d →
      HexText (b' :: bs) t → HexText (b :: b' :: bs) (c :: d :: ':' :: t)

/-- What makes starting a server fail. -/
inductive BootError (M : Machine) (c : Config) : String → Prop
  | http {l e : String} : c.httpListen = some l → M.bindHttp l = .error e → BootError M c e
  | cert {l e : String} : c.httpsListen = some l → M.certify (["localhost", "127.0.0.1", "::1"] ++ M.hostname.toList) = .error e → BootError M c e
  | https {l e : String} : c.httpsListen = some l → M.bindHttps l = .error e → BootError M c e
  | tls {l e : String} {key : Bytes} : c.httpsListen = some l → M.certify (["localhost", "127.0.0.1", "::1"] ++ M.hostname.toList) = .ok key → M.tls key = .error e →
      BootError M c e
  | unix {e : String} : M.bindUnix = .error e → BootError M c e

end Pizauth

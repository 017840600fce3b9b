import Verif.Model.ChaCha

/-!
# Specification: how dumps are encrypted
-/

namespace Pizauth

/-- Dumps are encrypted with ChaCha20Poly1305, under this key. -/
structure UsesChaCha (E : Env) : Prop where
  encrypt : ∀ nonce p, E.encrypt nonce p = ChaCha.encrypt
    [0x66, 0xa2, 0x47, 0xa8, 0x5e, 0x48, 0xcf, 0xec, 0xaa, 0xed, 0x9b, 0x36, 0xeb, 0xa9, 0x7d, 0x53,
     0x50, 0xd4, 0x28, 0x63, 0x75, 0x09, 0x7a, 0x44, 0xee, 0xff, 0xb9, 0xc4, 0x54, 0x6b, 0x65, 0xa3] nonce [] p
  decrypt : ∀ nonce b, E.decrypt nonce b = ChaCha.decrypt
    [0x66, 0xa2, 0x47, 0xa8, 0x5e, 0x48, 0xcf, 0xec, 0xaa, 0xed, 0x9b, 0x36, 0xeb, 0xa9, 0x7d, 0x53,
     0x50, 0xd4, 0x28, 0x63, 0x75, 0x09, 0x7a, 0x44, 0xee, 0xff, 0xb9, 0xc4, 0x54, 0x6b, 0x65, 0xa3] nonce [] b

/-- The text as hexadecimal digits. -/
def hexOf (b : Bytes) : List Char :=
  b.flatMap fun x => [Nat.digitChar (x.toNat / 16), Nat.digitChar (x.toNat % 16)]

end Pizauth

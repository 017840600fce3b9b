import Verif.Model.Env

/-!
# ChaCha20Poly1305 (RFC 8439)

The crate `chacha20poly1305` as used by src/server/state.rs:107-143, modelled from the RFC. Everything else takes any
function in its place (`Env.encrypt`, `Env.decrypt`). Numbers are natural numbers; words are less than 2³².
-/

namespace Pizauth.ChaCha

/-- Rotates a word to the left. Used by src/server/state.rs:107-143. -/
def rotl (x n : Nat) : Nat := (x <<< n) % 2 ^ 32 ||| x >>> (32 - n)

/-- The quarter round on four words, RFC 8439, 2.1. -/
def quarter (a b c d : Nat) : Nat × Nat × Nat × Nat :=
  let a := (a + b) % 2 ^ 32
  let d := rotl (d ^^^ a) 16
  let c := (c + d) % 2 ^ 32
  let b := rotl (b ^^^ c) 12
  let a := (a + b) % 2 ^ 32
  let d := rotl (d ^^^ a) 8
  let c := (c + d) % 2 ^ 32
  let b := rotl (b ^^^ c) 7
  (a, b, c, d)

/-- Two rounds, RFC 8439, 2.3. -/
def double : List Nat → List Nat
  | [x0, x1, x2, x3, x4, x5, x6, x7, x8, x9, x10, x11, x12, x13, x14, x15] =>
    let (x0, x4, x8, x12) := quarter x0 x4 x8 x12
    let (x1, x5, x9, x13) := quarter x1 x5 x9 x13
    let (x2, x6, x10, x14) := quarter x2 x6 x10 x14
    let (x3, x7, x11, x15) := quarter x3 x7 x11 x15
    let (x0, x5, x10, x15) := quarter x0 x5 x10 x15
    let (x1, x6, x11, x12) := quarter x1 x6 x11 x12
    let (x2, x7, x8, x13) := quarter x2 x7 x8 x13
    let (x3, x4, x9, x14) := quarter x3 x4 x9 x14
    [x0, x1, x2, x3, x4, x5, x6, x7, x8, x9, x10, x11, x12, x13, x14, x15]
  | l => l

/-- The number with these bytes, the lowest first. Used by src/server/state.rs:107-143. -/
def le : Bytes → Nat
  | [] => 0
  | b :: r => b.toNat + 256 * le r

/-- The lowest `n` bytes of a number, the lowest first. Used by src/server/state.rs:107-143. -/
def bytes (n x : Nat) : Bytes := (List.range n).map fun i => UInt8.ofNat (x / 256 ^ i)

/-- Words of four bytes each. Used by src/server/state.rs:107-143. -/
def words : Bytes → List Nat
  | a :: b :: c :: d :: r => le [a, b, c, d] :: words r
  | _ => []

/-- `n` times the same. Used by src/server/state.rs:107-143. -/
def repeat' {α : Type} (f : α → α) : Nat → α → α
  | 0, x => x
  | n + 1, x => repeat' f n (f x)

/-- The block function, RFC 8439, 2.3: 64 bytes. -/
def block (key : Bytes) (counter : Nat) (nonce : Bytes) : Bytes :=
  let s := [0x61707865, 0x3320646e, 0x79622d32, 0x6b206574] ++ words key ++ [counter] ++ words nonce
  let t := (s.zip (repeat' double 10 s)).map fun p => (p.1 + p.2) % 2 ^ 32
  (List.range 64).map fun i => UInt8.ofNat (t.getD (i / 4) 0 / 256 ^ (i % 4))

/-- At least `n` bytes, from block 1 on, RFC 8439, 2.4. -/
def stream (key nonce : Bytes) (n : Nat) : Bytes :=
  (List.range ((n + 63) / 64)).flatMap fun i => block key (i + 1) nonce

/-- Encryption and decryption without authentication, RFC 8439, 2.4. -/
def cipher (key nonce text : Bytes) : Bytes := text.zipWith (· ^^^ ·) (stream key nonce text.length)

/-- The message in pieces of 16 bytes. Used by src/server/state.rs:107-143. -/
def chunks : Nat → Bytes → List Bytes
  | 0, _ => []
  | n + 1, m => m.take 16 :: chunks n (m.drop 16)

/-- Poly1305, RFC 8439, 2.5. -/
def poly1305 (key m : Bytes) : Bytes :=
  let r := le (key.take 16) &&& 0x0ffffffc0ffffffc0ffffffc0fffffff
  let s := le (key.drop 16)
  let acc := (chunks ((m.length + 15) / 16) m).foldl (fun a c => (a + le (c ++ [1])) * r % (2 ^ 130 - 5)) 0
  bytes 16 ((acc + s) % 2 ^ 128)

/-- Zeros up to a multiple of 16. Used by src/server/state.rs:107-143. -/
def pad16 (b : Bytes) : Bytes := List.replicate ((16 - b.length % 16) % 16) 0

/-- The tag, RFC 8439, 2.6 and 2.8. -/
def tag (key nonce aad c : Bytes) : Bytes :=
  poly1305 ((block key 0 nonce).take 32) (aad ++ pad16 aad ++ c ++ pad16 c ++ bytes 8 aad.length ++ bytes 8 c.length)

/-- `MAX_BLOCKS` of the crate: longer messages are errors. -/
def maxBlocks : Nat := 2 ^ 32 - 1

/-- `Aead::encrypt`. Used by src/server/state.rs:107-143. -/
def encrypt (key nonce aad p : Bytes) : Option Bytes :=
  if p.length / 64 ≥ maxBlocks then none
  else
    let c := cipher key nonce p
    some (c ++ tag key nonce aad c)

/-- `Aead::decrypt`. Used by src/server/state.rs:107-143. -/
def decrypt (key nonce aad b : Bytes) : Option Bytes :=
  if b.length < 16 then none
  else
    let c := b.take (b.length - 16)
    if c.length / 64 ≥ maxBlocks then none
    else if b.drop (b.length - 16) = tag key nonce aad c then some (cipher key nonce c)
    else none

/-- `CHACHA20_KEY`, src/server/state.rs:38. -/
def dumpKey : Bytes :=
  [0x66, 0xa2, 0x47, 0xa8, 0x5e, 0x48, 0xcf, 0xec, 0xaa, 0xed, 0x9b, 0x36, 0xeb, 0xa9, 0x7d, 0x53,
   0x50, 0xd4, 0x28, 0x63, 0x75, 0x09, 0x7a, 0x44, 0xee, 0xff, 0xb9, 0xc4, 0x54, 0x6b, 0x65, 0xa3]

end Pizauth.ChaCha

namespace Pizauth

/-- An environment with ChaCha20Poly1305, with the key of dumps, src/server/state.rs:114-120,131-136. -/
def Env.withChaCha (E : Env) : Env :=
  { E with encrypt := fun nonce p => ChaCha.encrypt ChaCha.dumpKey nonce [] p
           decrypt := fun nonce b => ChaCha.decrypt ChaCha.dumpKey nonce [] b }

end Pizauth

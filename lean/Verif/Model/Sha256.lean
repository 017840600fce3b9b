import Verif.Model.Prelude

/-!
# SHA-256

The daemon uses the crate `sha2` (src/server/request_token.rs:30-32), which is not part of the repository; the model works
with any function (`Env.sha256`). This is the one of FIPS 180-4, so that the examples of RFC 7636 can be checked. Words are
natural numbers below 2^32.
-/

namespace Pizauth.Sha256

/-- The constants K of FIPS 180-4, section 4.2.2. Used by src/server/request_token.rs:30-32. -/
def consts : List Nat :=
  [0x428a2f98, 0x71374491, 0xb5c0fbcf, 0xe9b5dba5, 0x3956c25b, 0x59f111f1, 0x923f82a4, 0xab1c5ed5,
   0xd807aa98, 0x12835b01, 0x243185be, 0x550c7dc3, 0x72be5d74, 0x80deb1fe, 0x9bdc06a7, 0xc19bf174,
   0xe49b69c1, 0xefbe4786, 0x0fc19dc6, 0x240ca1cc, 0x2de92c6f, 0x4a7484aa, 0x5cb0a9dc, 0x76f988da,
   0x983e5152, 0xa831c66d, 0xb00327c8, 0xbf597fc7, 0xc6e00bf3, 0xd5a79147, 0x06ca6351, 0x14292967,
   0x27b70a85, 0x2e1b2138, 0x4d2c6dfc, 0x53380d13, 0x650a7354, 0x766a0abb, 0x81c2c92e, 0x92722c85,
   0xa2bfe8a1, 0xa81a664b, 0xc24b8b70, 0xc76c51a3, 0xd192e819, 0xd6990624, 0xf40e3585, 0x106aa070,
   0x19a4c116, 0x1e376c08, 0x2748774c, 0x34b0bcb5, 0x391c0cb3, 0x4ed8aa4a, 0x5b9cca4f, 0x682e6ff3,
   0x748f82ee, 0x78a5636f, 0x84c87814, 0x8cc70208, 0x90befffa, 0xa4506ceb, 0xbef9a3f7, 0xc67178f2]

/-- The initial hash value, section 5.3.3. Used by src/server/request_token.rs:30-32. -/
def init : List Nat :=
  [0x6a09e667, 0xbb67ae85, 0x3c6ef372, 0xa54ff53a, 0x510e527f, 0x9b05688c, 0x1f83d9ab, 0x5be0cd19]

/-- Rotates a word to the right. Used by src/server/request_token.rs:30-32. -/
def rotr (n x : Nat) : Nat := (x >>> n) ||| ((x <<< (32 - n)) % 2 ^ 32)

/-- A word from four bytes. Used by src/server/request_token.rs:30-32. -/
def word (a b c d : UInt8) : Nat := ((a.toNat * 256 + b.toNat) * 256 + c.toNat) * 256 + d.toNat

/-- Words of four bytes each. Used by src/server/request_token.rs:30-32. -/
def words : Bytes → List Nat
  | a :: b :: c :: d :: r => word a b c d :: words r
  | _ => []

/-- The message schedule, section 6.2.2, step 1: `w` has the last sixteen words, latest first. Used by
src/server/request_token.rs:30-32. -/
def schedule : Nat → List Nat → List Nat
  | 0, _ => []
  | n + 1, w =>
    let w15 := w.getD 14 0
    let w2 := w.getD 1 0
    let s0 := rotr 7 w15 ^^^ rotr 18 w15 ^^^ (w15 >>> 3)
    let s1 := rotr 17 w2 ^^^ rotr 19 w2 ^^^ (w2 >>> 10)
    let x := (s1 + w.getD 6 0 + s0 + w.getD 15 0) % 2 ^ 32
    x :: schedule n (x :: w.take 15)

/-- Section 6.2.2, step 3. Used by src/server/request_token.rs:30-32. -/
def rounds : List (Nat × Nat) → List Nat → List Nat
  | [], s => s
  | (k, w) :: r, [a, b, c, d, e, f, g, h] =>
    let t1 := h + (rotr 6 e ^^^ rotr 11 e ^^^ rotr 25 e) + ((e &&& f) ^^^ ((2 ^ 32 - 1 - e) &&& g)) + k + w
    let t2 := (rotr 2 a ^^^ rotr 13 a ^^^ rotr 22 a) + ((a &&& b) ^^^ (a &&& c) ^^^ (b &&& c))
    rounds r [(t1 + t2) % 2 ^ 32, a, b, c, (d + t1) % 2 ^ 32, e, f, g]
  | _, s => s

/-- One block of sixteen words. Used by src/server/request_token.rs:30-32. -/
def block (s : List Nat) (m : List Nat) : List Nat :=
  List.zipWith (fun x y => (x + y) % 2 ^ 32) s (rounds (consts.zip (m ++ schedule 48 m.reverse)) s)

/-- All blocks, one after the other. Used by src/server/request_token.rs:30-32. -/
def blocks : Nat → List Nat → List Nat → List Nat
  | 0, s, _ => s
  | n + 1, s, m => blocks n (block s (m.take 16)) (m.drop 16)

/-- The four bytes of a word. Used by src/server/request_token.rs:30-32. -/
def bytesOf (n k : Nat) : Bytes := (List.range n).map fun i => UInt8.ofNat (k / 256 ^ (n - 1 - i))

/-- Section 5.1.1. -/
def pad (m : Bytes) : Bytes :=
  m ++ [0x80] ++ List.replicate ((119 - m.length % 64) % 64) 0 ++ bytesOf 8 (8 * m.length)

/-- The hash of a text. Used by src/server/request_token.rs:30-32. -/
def sha256 (m : Bytes) : Bytes :=
  (blocks ((pad m).length / 64) init (words (pad m))).flatMap (bytesOf 4)

end Pizauth.Sha256

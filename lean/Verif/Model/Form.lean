import Verif.Model.Server

/-!
# Forms: `application/x-www-form-urlencoded`

The part of the crate `form_urlencoded` (with `percent-encoding`) which is used by `Url::parse_with_params`
(src/server/request_token.rs:53), `Url::query_pairs` (src/server/http_server.rs:60,96,111) and ureq's `send_form`
(src/server/http_server.rs:163, src/server/refresher.rs:256). `Model/Env.lean` and `Model/Server.lean` have lists of
pairs in the places of these texts. Texts are lists of bytes.
-/

namespace Pizauth
namespace Form

/-- `form_urlencoded::byte_serialized_unchanged`: `*`, `-`, `.`, `_`, digits and letters stay as they are. Used by
src/server/request_token.rs:53, src/server/http_server.rs:163, src/server/refresher.rs:256. -/
def unchanged (b : UInt8) : Bool :=
  b == 42 || b == 45 || b == 46 || b == 95 || (decide (48 ≤ b) && decide (b ≤ 57)) ||
    (decide (65 ≤ b) && decide (b ≤ 90)) || (decide (97 ≤ b) && decide (b ≤ 122))

/-- An upper-case hexadecimal digit. Used by src/server/request_token.rs:53, src/server/http_server.rs:163,
src/server/refresher.rs:256. -/
def hexDigit (n : Nat) : UInt8 := UInt8.ofNat (if n < 10 then 48 + n else 55 + n)

/-- `form_urlencoded::byte_serialize` of one byte: `+` for a blank, `%XX` for anything else which does not stay. Used by
src/server/request_token.rs:53, src/server/http_server.rs:163, src/server/refresher.rs:256. -/
def encByte (b : UInt8) : Bytes :=
  if unchanged b then [b] else if b = 32 then [43] else [37, hexDigit (b.toNat / 16), hexDigit (b.toNat % 16)]

/-- `form_urlencoded::byte_serialize` of a string. Used by src/server/request_token.rs:53,
src/server/http_server.rs:163, src/server/refresher.rs:256. -/
def encode (s : String) : Bytes := (utf8 s).flatMap encByte

/-- `Serializer::append_pair`, for a serializer which writes from the beginning of `t` on: the separator `&` if
something is there, the name, `=`, the value. Used by src/server/request_token.rs:53, src/server/http_server.rs:163,
src/server/refresher.rs:256. -/
def appendPair (t : Bytes) (p : String × String) : Bytes :=
  t ++ (if t.isEmpty then [] else [38]) ++ encode p.1 ++ [61] ++ encode p.2

/-- `Serializer::extend_pairs` on the text `t`. Used by src/server/request_token.rs:53, src/server/http_server.rs:163,
src/server/refresher.rs:256. -/
def extendPairs (t : Bytes) (ps : List (String × String)) : Bytes := ps.foldl appendPair t

/-- ureq's `send_form(ps)`: the body of the request, src/server/http_server.rs:163, src/server/refresher.rs:256. -/
def body (ps : List (String × String)) : Bytes := extendPairs [] ps

/-- `Url::parse_with_params`: the query of the URL with parameters `ps`; `q` is the query of the URL without them
(`none`: there is no `?`), src/server/request_token.rs:53. -/
def withParams (q : Option Bytes) (ps : List (String × String)) : Bytes := extendPairs (q.getD []) ps

/-- The value of a hexadecimal digit. Used by src/server/http_server.rs:60,96,111. -/
def hexVal (b : UInt8) : Option Nat :=
  if 48 ≤ b ∧ b ≤ 57 then some (b.toNat - 48)
  else if 65 ≤ b ∧ b ≤ 70 then some (b.toNat - 55)
  else if 97 ≤ b ∧ b ≤ 102 then some (b.toNat - 87)
  else none

/-- `percent_encoding::percent_decode`; a `%` which two hexadecimal digits do not follow stays. Used by
src/server/http_server.rs:60,96,111. -/
def percentDecode : Bytes → Bytes
  | [] => []
  | b :: r =>
    if b = 37 then
      match r with
      | x :: y :: r' =>
        match hexVal x, hexVal y with
        | some h, some l => UInt8.ofNat (16 * h + l) :: percentDecode r'
        | _, _ => b :: percentDecode (x :: y :: r')
      | [x] => [b, x]
      | [] => [b]
    else b :: percentDecode r

/-- Is this a continuation byte of UTF-8 which may come second, after `b0`, in a sequence of three or four bytes? Used
by src/server/http_server.rs:60,96,111. -/
def second (b0 b1 : UInt8) : Bool :=
  if b0 = 0xE0 then decide (0xA0 ≤ b1 ∧ b1 ≤ 0xBF)
  else if b0 = 0xED then decide (0x80 ≤ b1 ∧ b1 ≤ 0x9F)
  else if 0xE1 ≤ b0 ∧ b0 ≤ 0xEF then decide (0x80 ≤ b1 ∧ b1 ≤ 0xBF)
  else if b0 = 0xF0 then decide (0x90 ≤ b1 ∧ b1 ≤ 0xBF)
  else if 0xF1 ≤ b0 ∧ b0 ≤ 0xF3 then decide (0x80 ≤ b1 ∧ b1 ≤ 0xBF)
  else if b0 = 0xF4 then decide (0x80 ≤ b1 ∧ b1 ≤ 0x8F)
  else false

/-- How many bytes `String::from_utf8_lossy` replaces by one U+FFFD, where there is no character. Used by
src/server/http_server.rs:60,96,111. -/
def badLen : Bytes → Nat
  | b0 :: b1 :: r =>
    if second b0 b1 then
      match r with
      | b2 :: _ => if 0xF0 ≤ b0 ∧ 0x80 ≤ b2 ∧ b2 ≤ 0xBF then 3 else 2
      | [] => 2
    else 1
  | _ => 1

/-- `String::from_utf8_lossy`; `fuel` is at least the number of bytes. Used by src/server/http_server.rs:60,96,111. -/
def lossyLoop : Nat → Bytes → List Char
  | 0, _ => []
  | _ + 1, [] => []
  | fuel + 1, b :: r =>
    match ByteArray.utf8DecodeChar? ⟨(b :: r).toArray⟩ 0 with
    | some c => c :: lossyLoop fuel ((b :: r).drop c.utf8Size)
    | none => Char.ofNat 0xFFFD :: lossyLoop fuel ((b :: r).drop (badLen (b :: r)))

/-- `String::from_utf8_lossy` (`decode_utf8_lossy` in `form_urlencoded`). Used by src/server/http_server.rs:60,96,111. -/
def lossy (b : Bytes) : String := String.ofList (lossyLoop b.length b)

/-- `form_urlencoded::decode`: `+` is a blank. Used by src/server/http_server.rs:60,96,111. -/
def decode (b : Bytes) : String := lossy (percentDecode (b.map fun x => if x = 43 then 32 else x))

/-- The text up to the first byte `c`, and the text after it (all of it and nothing if there is none). Used by
src/server/http_server.rs:60,96,111. -/
def cut (c : UInt8) : Bytes → Bytes × Bytes
  | [] => ([], [])
  | b :: r => if b = c then ([], r) else (b :: (cut c r).1, (cut c r).2)

/-- The pieces between bytes `&`. Used by src/server/http_server.rs:60,96,111. -/
def pieces : Bytes → List Bytes
  | [] => [[]]
  | b :: r =>
    if b = 38 then [] :: pieces r
    else match pieces r with
      | p :: ps => (b :: p) :: ps
      | [] => [[b]]

/-- One piece: the name up to the first `=`, the value after it. Used by src/server/http_server.rs:60,96,111. -/
def pair (p : Bytes) : String × String := (decode (cut 61 p).1, decode (cut 61 p).2)

/-- `form_urlencoded::parse`: empty pieces are skipped. Used by src/server/http_server.rs:60,96,111. -/
def parse (t : Bytes) : List (String × String) := ((pieces t).filter (! ·.isEmpty)).map pair

/-- `Url::query_pairs` of a URL with the query `q`. Used by src/server/http_server.rs:60,96,111. -/
def queryPairs (q : Option Bytes) : List (String × String) := parse (q.getD [])

end Form
end Pizauth

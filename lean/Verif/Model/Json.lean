import Verif.Model.Net
import Verif.Model.Config

/-!
# JSON texts (serde_json, with its default features)

`serde_json` is not part of the repository. The daemon reads the answers of token servers with it
(src/server/http_server.rs:193, src/server/refresher.rs:293) and writes the answer to `info` (src/server/mod.rs:122); the
client reads this answer (src/user_sender.rs:38) and writes the output of `info -j` (src/main.rs:189-205). This file is the
part of `serde_json` on which those rely.

Simplification: a number which is too large for a 64-bit float is an error in `serde_json`, here it is a number.
-/

namespace Pizauth

/-- A JSON value. Objects have the pairs of the text, in its order. Used by src/server/http_server.rs:195,
src/server/refresher.rs:295, src/user_sender.rs:36. -/
inductive Json where
  | null
  | bool (b : Bool)
  /-- a natural number which fits into 64 bits, written without fraction or exponent -/
  | nat (n : Nat)
  /-- any other number -/
  | num (text : List Char)
  | str (s : List Char)
  | arr (js : List Json)
  | obj (kvs : List (List Char × Json))

namespace Json

/-! ## Reading -/

/-- White space. Used by src/server/http_server.rs:195, src/server/refresher.rs:295, src/user_sender.rs:36. -/
def isWs (c : Char) : Bool := c == ' ' || c == '\n' || c == '\t' || c == '\r'

/-- `parse_whitespace`, used by src/server/http_server.rs:195, src/server/refresher.rs:295, src/user_sender.rs:36. -/
def skipWs (s : List Char) : List Char := s.dropWhile isWs

/-- A digit. Used by src/server/http_server.rs:195, src/server/refresher.rs:295, src/user_sender.rs:36. -/
def isDig (c : Char) : Bool := decide ('0' ≤ c) && decide (c ≤ '9')

/-- The digits at the front of a text. Used by src/server/http_server.rs:195, src/server/refresher.rs:295,
src/user_sender.rs:36. -/
def digits (s : List Char) : List Char × List Char := (s.takeWhile isDig, s.dropWhile isDig)

/-- `-`, if there is one. Used by src/server/http_server.rs:195, src/server/refresher.rs:295, src/user_sender.rs:36. -/
def sign (s : List Char) : List Char × List Char :=
  match s with
  | '-' :: r => (['-'], r)
  | _ => ([], s)

/-- `parse_integer`: `0`, or digits which do not begin with `0`. Used by src/server/http_server.rs:195,
src/server/refresher.rs:295, src/user_sender.rs:36. -/
def intPart (s : List Char) : Option (List Char × List Char) :=
  match s with
  | '0' :: r => some (['0'], r)
  | _ =>
    match digits s with
    | ([], _) => none
    | (ds, r) => some (ds, r)

/-- `parse_decimal`: a point must be followed by digits. Used by src/server/http_server.rs:195,
src/server/refresher.rs:295, src/user_sender.rs:36. -/
def fracPart (s : List Char) : Option (List Char × List Char) :=
  match s with
  | '.' :: r =>
    match digits r with
    | ([], _) => none
    | (ds, r') => some ('.' :: ds, r')
  | _ => some ([], s)

/-- The sign of an exponent. Used by src/server/http_server.rs:195, src/server/refresher.rs:295, src/user_sender.rs:36. -/
def expSign (s : List Char) : List Char × List Char :=
  match s with
  | '+' :: r => (['+'], r)
  | '-' :: r => (['-'], r)
  | _ => ([], s)

/-- `parse_exponent`, used by src/server/http_server.rs:195, src/server/refresher.rs:295, src/user_sender.rs:36. -/
def expPart (s : List Char) : Option (List Char × List Char) :=
  match s with
  | c :: r =>
    if c == 'e' || c == 'E' then
      match digits (expSign r).2 with
      | ([], _) => none
      | (ds, r') => some (c :: (expSign r).1 ++ ds, r')
    else some ([], s)
  | [] => some ([], [])

/-- The value of the text of a number: `ParserNumber` and `as_u64`. Used by src/server/http_server.rs:195,
src/server/refresher.rs:295, src/user_sender.rs:36. -/
def numVal (t : List Char) : Json :=
  if t.all isDig && decide (digitsVal t < u64Size) then .nat (digitsVal t) else .num t

/-- `parse_any_number`, used by src/server/http_server.rs:195, src/server/refresher.rs:295, src/user_sender.rs:36. -/
def number (s : List Char) : Option (Json × List Char) :=
  match intPart (sign s).2 with
  | none => none
  | some (i, r1) =>
    match fracPart r1 with
    | none => none
    | some (f, r2) =>
      match expPart r2 with
      | none => none
      | some (e, r3) => some (numVal ((sign s).1 ++ i ++ f ++ e), r3)

/-- The value of a hexadecimal digit. Used by src/server/http_server.rs:195, src/server/refresher.rs:295,
src/user_sender.rs:36. -/
def hexVal (c : Char) : Option Nat :=
  if isDig c then some (c.toNat - 48)
  else if decide ('a' ≤ c) && decide (c ≤ 'f') then some (c.toNat - 87)
  else if decide ('A' ≤ c) && decide (c ≤ 'F') then some (c.toNat - 55)
  else none

/-- `decode_hex_escape`: four hexadecimal digits. Used by src/server/http_server.rs:195, src/server/refresher.rs:295,
src/user_sender.rs:36. -/
def hex4 (s : List Char) : Option (Nat × List Char) :=
  match s with
  | a :: b :: c :: d :: r =>
    match hexVal a, hexVal b, hexVal c, hexVal d with
    | some a, some b, some c, some d => some (((a * 16 + b) * 16 + c) * 16 + d, r)
    | _, _, _, _ => none
  | _ => none

/-- `parse_escape`: what follows a backslash. Used by src/server/http_server.rs:195, src/server/refresher.rs:295,
src/user_sender.rs:36. -/
def escape (s : List Char) : Option (Char × List Char) :=
  match s with
  | '"' :: r => some ('"', r)
  | '\\' :: r => some ('\\', r)
  | '/' :: r => some ('/', r)
  | 'b' :: r => some (Char.ofNat 8, r)
  | 'f' :: r => some (Char.ofNat 12, r)
  | 'n' :: r => some ('\n', r)
  | 'r' :: r => some ('\r', r)
  | 't' :: r => some ('\t', r)
  | 'u' :: r =>
    match hex4 r with
    | none => none
    | some (n, r) =>
      if n < 0xD800 || 0xDFFF < n then some (Char.ofNat n, r)
      else if 0xDBFF < n then none
      else
        match r with
        | '\\' :: 'u' :: r =>
          match hex4 r with
          | none => none
          | some (m, r) =>
            if m < 0xDC00 || 0xDFFF < m then none
            else some (Char.ofNat (0x10000 + (n - 0xD800) * 0x400 + (m - 0xDC00)), r)
        | _ => none
  | _ => none

/-- `parse_str`: up to the closing quote. Used by src/server/http_server.rs:195, src/server/refresher.rs:295,
src/user_sender.rs:36. -/
def string : Nat → List Char → Option (List Char × List Char)
  | 0, _ => none
  | fuel + 1, s =>
    match s with
    | [] => none
    | c :: r =>
      if c == '"' then some ([], r)
      else if c == '\\' then
        match escape r with
        | none => none
        | some (x, r) =>
          match string fuel r with
          | none => none
          | some (t, r) => some (x :: t, r)
      else if c.toNat < 32 then none
      else
        match string fuel r with
        | none => none
        | some (t, r) => some (c :: t, r)

/-- What is being read: a value, the rest of a list after `[`, or the rest of an object after `{` (neither empty). Used
by src/server/http_server.rs:195, src/server/refresher.rs:295, src/user_sender.rs:36. -/
inductive Item where
  | val (j : Json)
  | elems (js : List Json)
  | members (kvs : List (List Char × Json))

/-- What is to be read. Used by src/server/http_server.rs:195, src/server/refresher.rs:295, src/user_sender.rs:36. -/
inductive Kind where
  | val | elems | members

/-- `parse_value`, `SeqAccess`, `MapAccess`. `depth` is how deep lists and objects may still be nested. Used by
src/server/http_server.rs:195, src/server/refresher.rs:295, src/user_sender.rs:36. -/
def item : Nat → Kind → Nat → List Char → Option (Item × List Char)
  | 0, _, _, _ => none
  | fuel + 1, .val, depth, s =>
    match skipWs s with
    | 'n' :: 'u' :: 'l' :: 'l' :: r => some (.val .null, r)
    | 't' :: 'r' :: 'u' :: 'e' :: r => some (.val (.bool true), r)
    | 'f' :: 'a' :: 'l' :: 's' :: 'e' :: r => some (.val (.bool false), r)
    | '"' :: r =>
      match string (r.length + 1) r with
      | none => none
      | some (t, r) => some (.val (.str t), r)
    | '[' :: r =>
      match depth with
      | 0 => none
      | depth + 1 =>
        match skipWs r with
        | ']' :: r => some (.val (.arr []), r)
        | _ =>
          match item fuel .elems depth r with
          | some (.elems js, r) => some (.val (.arr js), r)
          | _ => none
    | '{' :: r =>
      match depth with
      | 0 => none
      | depth + 1 =>
        match skipWs r with
        | '}' :: r => some (.val (.obj []), r)
        | _ =>
          match item fuel .members depth r with
          | some (.members kvs, r) => some (.val (.obj kvs), r)
          | _ => none
    | s =>
      match number s with
      | none => none
      | some (j, r) => some (.val j, r)
  | fuel + 1, .elems, depth, s =>
    match item fuel .val depth s with
    | some (.val j, r) =>
      match skipWs r with
      | ']' :: r => some (.elems [j], r)
      | ',' :: r =>
        match item fuel .elems depth r with
        | some (.elems js, r) => some (.elems (j :: js), r)
        | _ => none
      | _ => none
    | _ => none
  | fuel + 1, .members, depth, s =>
    match skipWs s with
    | '"' :: r =>
      match string (r.length + 1) r with
      | none => none
      | some (k, r) =>
        match skipWs r with
        | ':' :: r =>
          match item fuel .val depth r with
          | some (.val j, r) =>
            match skipWs r with
            | '}' :: r => some (.members [(k, j)], r)
            | ',' :: r =>
              match item fuel .members depth r with
              | some (.members kvs, r) => some (.members ((k, j) :: kvs), r)
              | _ => none
            | _ => none
          | _ => none
        | _ => none
    | _ => none

/-- Lists and objects may be nested 127 deep (`remaining_depth: 128`, `check_recursion!`). Used by
src/server/http_server.rs:195, src/server/refresher.rs:295, src/user_sender.rs:36. -/
def maxDepth : Nat := 127

/-- `serde_json::from_str::<Value>`, used by src/server/http_server.rs:195, src/server/refresher.rs:295,
src/user_sender.rs:36. -/
def fromStr (s : List Char) : Option Json :=
  match item (s.length + 1) .val maxDepth s with
  | some (.val j, r) => if (skipWs r).isEmpty then some j else none
  | _ => none

/-! ## Writing -/

/-- A digit of `\u00XX`. Used by src/server/mod.rs:122, src/main.rs:204. -/
def hexDigit (n : Nat) : Char := if n < 10 then Char.ofNat (48 + n) else Char.ofNat (87 + n)

/-- `format_escaped_str`: one character. Used by src/server/mod.rs:122, src/main.rs:204. -/
def escaped (c : Char) : List Char :=
  if c == '"' then ['\\', '"']
  else if c == '\\' then ['\\', '\\']
  else if c.toNat = 8 then ['\\', 'b']
  else if c.toNat = 9 then ['\\', 't']
  else if c.toNat = 10 then ['\\', 'n']
  else if c.toNat = 12 then ['\\', 'f']
  else if c.toNat = 13 then ['\\', 'r']
  else if c.toNat < 32 then ['\\', 'u', '0', '0', hexDigit (c.toNat / 16), hexDigit (c.toNat % 16)]
  else [c]

/-- A string in quotes. Used by src/server/mod.rs:122, src/main.rs:204. -/
def quoted (s : List Char) : List Char := '"' :: (s.flatMap escaped ++ ['"'])

/-- An object whose values have been written already, as `Display for Value` does it. Used by src/server/mod.rs:122,
src/main.rs:204. -/
def objText : List (List Char × List Char) → List Char
  | [] => ['{', '}']
  | kv :: kvs => '{' :: (quoted kv.1 ++ ':' :: kv.2 ++ (kvs.flatMap fun kv => ',' :: quoted kv.1 ++ ':' :: kv.2) ++ ['}'])

end Json

/-! ## The answers of token servers -/

/-- What the daemon distinguishes, src/server/http_server.rs:208-220, src/server/refresher.rs:297,322-332. -/
def Json.toJVal : Json → JVal
  | .str s => .str (String.ofList s)
  | .nat n => .u64 n
  | _ => .other

/-- If a key occurs several times, its last value counts (`Map::insert`), src/server/http_server.rs:195,
src/server/refresher.rs:295. -/
def Json.toBody : Json → Body
  | .obj kvs => .obj (kvs.reverse.map fun kv => (String.ofList kv.1, kv.2.toJVal))
  | _ => .nonObj

/-- What the daemon makes of the text of an answer, src/server/http_server.rs:193-199, src/server/refresher.rs:293-318. -/
def Net.ofText (s : String) (msg : String) : Net :=
  match Json.fromStr s.toList with
  | some j => .body j.toBody
  | none => .badJson msg

end Pizauth

import Verif.Model.Prelude
import Verif.Model.Env

/-!
# Parsing of HTTP requests (src/server/http_server.rs:280-356)
-/

namespace Pizauth

/-- `char::is_whitespace` (the Unicode property White_Space), src/server/http_server.rs:305,316,321. -/
def isRustWs (c : Char) : Bool :=
  let n := c.toNat
  (9 ≤ n && n ≤ 13) || n = 32 || n = 0x85 || n = 0xA0 || n = 0x1680 || (0x2000 ≤ n && n ≤ 0x200A)
    || n = 0x2028 || n = 0x2029 || n = 0x202F || n = 0x205F || n = 0x3000

/-- `str::trim_end`, on characters, src/server/http_server.rs:316,321. -/
def trimEnd (l : List Char) : List Char := (l.reverse.dropWhile isRustWs).reverse

/-- `str::trim().is_empty()`, src/server/http_server.rs:305. -/
def isBlank (l : List Char) : Bool := l.all isRustWs

/-- The bytes up to and including the first `\n`, and the rest, src/server/http_server.rs:285,304. -/
def splitLine : Bytes → Bytes × Bytes
  | [] => ([], [])
  | b :: r => if b = 10 then ([b], r) else ((b :: (splitLine r).1), (splitLine r).2)

/-- `BufRead::read_line` on a stream which delivers exactly the given bytes: the line and the remaining
stream; `none` is the error for a line that is not UTF-8, src/server/http_server.rs:285,304. -/
def readLine (b : Bytes) : Option (List Char × Bytes) :=
  (fromUtf8 (splitLine b).1).map fun s => (s.toList, (splitLine b).2)

/-- `str::split(' ')`, src/server/http_server.rs:291. -/
def splitSpaces : List Char → List (List Char)
  | [] => [[]]
  | c :: r =>
    if c = ' ' then [] :: splitSpaces r
    else
      match splitSpaces r with
      | [] => [[c]]
      | x :: xs => (c :: x) :: xs

/-- The request line, src/server/http_server.rs:288-295: the path, if the line is a `GET` with three parts. -/
def parseReqLine (l : List Char) : Option (List Char) :=
  match splitSpaces l with
  | [m, p, _] => if m = ['G', 'E', 'T'] then some p else none
  | _ => none

/-- `MAX_HTTP_REQUEST_SIZE`, src/server/http_server.rs:35. -/
def maxHttpRequestSize : Nat := 16 * 1024

/-- Append to the last header, src/server/http_server.rs:312-319. `req` is kept in reverse. -/
def pushCont (req : List (List Char)) (line : List Char) : Option (List (List Char)) :=
  match req with
  | [] => none
  | x :: xs => some ((x ++ trimEnd line) :: xs)

/-- The loop at src/server/http_server.rs:298-323: `size` is `http_req_size`, `req` the header lines read so far
in reverse order. `fuel` bounds the number of iterations; `headerLoop` below supplies enough. Returns the header lines
(reversed) and the unread stream. -/
def headerLoopN : Nat → Bytes → Nat → List (List Char) → Option (List (List Char) × Bytes)
  | 0, _, _, _ => none
  | fuel + 1, b, size, req =>
    if maxHttpRequestSize ≤ size then none
    else
      match readLine b with
      | none => none
      | some (line, b') =>
        if isBlank line then some (req, b')
        else
          let size' := size + (splitLine b).1.length
          match line with
          | ' ' :: _ | '\t' :: _ =>
            match pushCont req line with
            | none => none
            | some req' => headerLoopN fuel b' size' req'
          | _ => headerLoopN fuel b' size' (trimEnd line :: req)

/-- The loop, with enough fuel: every iteration that continues consumes at least one byte,
src/server/http_server.rs:299-323. -/
def headerLoop (b : Bytes) (size : Nat) : Option (List (List Char) × Bytes) :=
  headerLoopN (b.length + 1) b size []

/-- `eq_ignore_ascii_case("host")` (`Char.toLower` is ASCII lower-casing), src/server/http_server.rs:331. -/
def isHostName (l : List Char) : Bool := l.map Char.toLower == "host".toList

/-- One header at src/server/http_server.rs:330-342: its value if it is a `host` header. -/
def hostValue (f : List Char) : Option (List Char) :=
  let n := f.takeWhile (· != ':')
  if n.length = f.length then none
  else if isHostName n then
    some ((f.drop (n.length + 1)).dropWhile fun c => c == ' ' || c == '\t')
  else none

/-- The loop at src/server/http_server.rs:326-344. -/
def findHost : List (List Char) → Option (List Char) → Option (Option (List Char))
  | [], host => some host
  | f :: r, host =>
    match hostValue f with
    | none => findHost r host
    | some h => if host.isSome then none else findHost r (some h)

/-- `parse_get`, src/server/http_server.rs:282-356. -/
def parseGet (E : Env) (b : Bytes) (isHttps : Bool) : Option Url :=
  match readLine b with
  | none => none
  | some (reqLine, b') =>
    match parseReqLine reqLine with
    | none => none
    | some path =>
      match headerLoop b' (splitLine b).1.length with
      | none => none
      | some (req, _) =>
        match findHost req.reverse none with
        | some (some h) =>
          E.parseUrl ((if isHttps then "https" else "http") ++ "://" ++ String.ofList h ++ String.ofList path)
        | _ => none

/-- `http_200`, src/server/http_server.rs:358-364. -/
def http200 (body : String) : Bytes :=
  utf8 ("HTTP/1.1 200 OK\r\n\r\n<html><body><h2>" ++ body ++ "</h2></body></html>")

/-- `http_404`, src/server/http_server.rs:366-368. -/
def http404 : Bytes := utf8 "HTTP/1.1 404\r\n\r\n"

/-- `http_400`, src/server/http_server.rs:370-372. -/
def http400 : Bytes := utf8 "HTTP/1.1 400\r\n\r\n"

end Pizauth

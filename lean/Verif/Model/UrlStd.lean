import Verif.Model.Env
import Verif.Model.Form

/-!
# URLs

The part of the crate `url` 2.5.4 which is used (`Url::parse`, `Url::parse_with_params`, `Url::to_string`), modelled from
the URL standard (https://url.spec.whatwg.org), which it implements. Everything else takes any functions in their places
(`Env.parseUrl`, `Env.renderUrl`). Only the schemes http and https are spelled out. Texts are lists of characters.
-/

namespace Pizauth
namespace UrlStd

/-- What is not spelled out. Used by src/config.rs:291-317, src/server/request_token.rs:53,
src/server/http_server.rs:350 (`Url::parse`). -/
structure Lib where
  /-- UTS 46, for domains with other than ASCII characters or with labels which start with `xn--` -/
  toAscii : List Char → Option (List Char)
  /-- the address between brackets, in its canonical form -/
  ipv6 : List Char → Option (List Char)
  /-- URLs with other schemes than http and https -/
  other : String → Option Url

/-- ASCII digits. Used by src/config.rs:291-317, src/server/request_token.rs:53, src/server/http_server.rs:350
(`Url::parse`). -/
def digit (c : Char) : Bool := decide ('0' ≤ c) && decide (c ≤ '9')

/-- ASCII letters. Used by src/config.rs:291-317, src/server/request_token.rs:53, src/server/http_server.rs:350
(`Url::parse`). -/
def alpha (c : Char) : Bool := (decide ('a' ≤ c) && decide (c ≤ 'z')) || (decide ('A' ≤ c) && decide (c ≤ 'Z'))

/-- What is ignored: control characters and blanks at both ends, tabs and newlines everywhere. Used by
src/config.rs:291-317, src/server/request_token.rs:53, src/server/http_server.rs:350 (`Url::parse`). -/
def clean (l : List Char) : List Char :=
  let trim := fun l : List Char => l.dropWhile fun c => decide (c.toNat ≤ 32)
  (trim (trim l).reverse).reverse.filter fun c => c != '\t' && c != '\n' && c != '\r'

/-- The scheme, in lower case, and what comes after its colon. Used by src/config.rs:291-317,
src/server/request_token.rs:53, src/server/http_server.rs:350 (`Url::parse`). -/
def scheme (l : List Char) : Option (List Char × List Char) :=
  let s := l.takeWhile fun c => alpha c || digit c || c == '+' || c == '-' || c == '.'
  match s, l.drop s.length with
  | c :: _, ':' :: r => if alpha c then some (s.map Char.toLower, r) else none
  | _, _ => none

/-- `/`, or `\`, which is taken for it. Used by src/config.rs:291-317, src/server/request_token.rs:53,
src/server/http_server.rs:350 (`Url::parse`). -/
def slash (c : Char) : Bool := c == '/' || c == '\\'

/-- Where the authority ends. Used by src/config.rs:291-317, src/server/request_token.rs:53,
src/server/http_server.rs:350 (`Url::parse`). -/
def ender (c : Char) : Bool := slash c || c == '?' || c == '#'

/-- An upper-case hexadecimal digit. Used by src/config.rs:291-317, src/server/request_token.rs:53,
src/server/http_server.rs:350 (`Url::parse`). -/
def hexChar (n : Nat) : Char := Char.ofNat (if n < 10 then 48 + n else 55 + n)

/-- `%XX`, used by src/config.rs:291-317, src/server/request_token.rs:53, src/server/http_server.rs:350 (`Url::parse`). -/
def percentByte (b : UInt8) : List Char := ['%', hexChar (b.toNat / 16), hexChar (b.toNat % 16)]

/-- `utf8_percent_encode`: characters which are not ASCII or are in the set. Used by src/config.rs:291-317,
src/server/request_token.rs:53, src/server/http_server.rs:350 (`Url::parse`). -/
def percentEncode (set : Char → Bool) (l : List Char) : List Char :=
  l.flatMap fun c =>
    if decide (c.toNat < 128) && !set c then [c] else (utf8 (String.ofList [c])).flatMap percentByte

/-- C0 control percent-encode set. Used by src/config.rs:291-317, src/server/request_token.rs:53,
src/server/http_server.rs:350 (`Url::parse`). -/
def inControls (c : Char) : Bool := decide (c.toNat < 32) || decide (126 < c.toNat)

/-- Fragment percent-encode set. Used by src/config.rs:291-317, src/server/request_token.rs:53,
src/server/http_server.rs:350 (`Url::parse`). -/
def inFragment (c : Char) : Bool := inControls c || " \"<>`".toList.contains c

/-- Path percent-encode set. Used by src/config.rs:291-317, src/server/request_token.rs:53,
src/server/http_server.rs:350 (`Url::parse`). -/
def inPath (c : Char) : Bool := inFragment c || "#?{}".toList.contains c

/-- Userinfo percent-encode set. Used by src/config.rs:291-317, src/server/request_token.rs:53,
src/server/http_server.rs:350 (`Url::parse`). -/
def inUserinfo (c : Char) : Bool := inPath c || "/:;=@[\\]^|".toList.contains c

/-- Query percent-encode set of http and https. Used by src/config.rs:291-317, src/server/request_token.rs:53,
src/server/http_server.rs:350 (`Url::parse`). -/
def inQuery (c : Char) : Bool := inControls c || " \"#<>'".toList.contains c

/-- The text after the last `c`, and the text before it, if there is one. Used by src/config.rs:291-317,
src/server/request_token.rs:53, src/server/http_server.rs:350 (`Url::parse`). -/
def cutLast (c : Char) (l : List Char) : Option (List Char) × List Char :=
  let r := l.reverse.takeWhile (· != c)
  if r.length = l.length then (none, l) else (some (l.take (l.length - r.length - 1)), r.reverse)

/-- User and password, with the `@`. Used by src/config.rs:291-317, src/server/request_token.rs:53,
src/server/http_server.rs:350 (`Url::parse`). -/
def userinfo (l : List Char) : List Char :=
  let user := l.takeWhile (· != ':')
  let pass := l.drop (user.length + 1)
  let t := percentEncode inUserinfo user ++ (if pass.isEmpty then [] else ':' :: percentEncode inUserinfo pass)
  if t.isEmpty then [] else t ++ ['@']

/-- The host up to the first `:` which is not between brackets. Used by src/config.rs:291-317,
src/server/request_token.rs:53, src/server/http_server.rs:350 (`Url::parse`). -/
def hostEnd : Bool → List Char → List Char × List Char
  | _, [] => ([], [])
  | inside, c :: r =>
    if c = ':' ∧ inside = false then ([], c :: r)
    else
      let x := hostEnd (if c = '[' then true else if c = ']' then false else inside) r
      (c :: x.1, x.2)

/-- Forbidden domain code points. Used by src/config.rs:291-317, src/server/request_token.rs:53,
src/server/http_server.rs:350 (`Url::parse`). -/
def forbidden (c : Char) : Bool := decide (c.toNat ≤ 32) || c.toNat == 127 || "#/:<>?@[\\]^|%".toList.contains c

/-- The pieces between dots. Used by src/config.rs:291-317, src/server/request_token.rs:53,
src/server/http_server.rs:350 (`Url::parse`). -/
def labels : List Char → List (List Char)
  | [] => [[]]
  | c :: r =>
    if c = '.' then [] :: labels r
    else match labels r with
      | x :: xs => (c :: x) :: xs
      | [] => [[c]]

/-- A domain for which UTS 46 is no more than lower case. Used by src/config.rs:291-317, src/server/request_token.rs:53,
src/server/http_server.rs:350 (`Url::parse`). -/
def plain (l : List Char) : Bool :=
  l.all (fun c => decide (c.toNat < 128)) && (labels l).all fun x => x.map Char.toLower |>.take 4 |> (· != "xn--".toList)

/-- Domain to ASCII. Used by src/config.rs:291-317, src/server/request_token.rs:53, src/server/http_server.rs:350
(`Url::parse`). -/
def domain (L : Lib) (l : List Char) : Option (List Char) :=
  match (if plain l then some (l.map Char.toLower) else L.toAscii l) with
  | none => none
  | some d => if d.isEmpty || d.any forbidden then none else some d

/-- Value of a digit. Used by src/config.rs:291-317, src/server/request_token.rs:53, src/server/http_server.rs:350
(`Url::parse`). -/
def digitVal (c : Char) : Nat :=
  if digit c then c.toNat - 48 else if decide ('a' ≤ c) then c.toNat - 87 else c.toNat - 55

/-- Is this a hexadecimal digit? Used by src/config.rs:291-317, src/server/request_token.rs:53,
src/server/http_server.rs:350 (`Url::parse`). -/
def hexDigit (c : Char) : Bool :=
  digit c || (decide ('a' ≤ c) && decide (c ≤ 'f')) || (decide ('A' ≤ c) && decide (c ≤ 'F'))

/-- The value of digits. Used by src/config.rs:291-317, src/server/request_token.rs:53, src/server/http_server.rs:350
(`Url::parse`). -/
def number (base : Nat) (l : List Char) : Nat := l.foldl (fun n c => n * base + digitVal c) 0

/-- A part of an IPv4 address: hexadecimal, octal or decimal. Used by src/config.rs:291-317,
src/server/request_token.rs:53, src/server/http_server.rs:350 (`Url::parse`). -/
def ipv4Number (l : List Char) : Option Nat :=
  match l with
  | [] => none
  | '0' :: 'x' :: r | '0' :: 'X' :: r => if r.all hexDigit then some (number 16 r) else none
  | '0' :: c :: r => if (c :: r).all (fun c => digit c && c != '8' && c != '9') then some (number 8 (c :: r)) else none
  | l => if l.all digit then some (number 10 l) else none

/-- The parts of a domain, without an empty one at the end. Used by src/config.rs:291-317,
src/server/request_token.rs:53, src/server/http_server.rs:350 (`Url::parse`). -/
def parts (d : List Char) : List (List Char) :=
  let p := labels d
  if p.length > 1 && p.getLast? == some [] then p.dropLast else p

/-- Is this to be an IPv4 address? Used by src/config.rs:291-317, src/server/request_token.rs:53,
src/server/http_server.rs:350 (`Url::parse`). -/
def endsInNumber (d : List Char) : Bool :=
  match (parts d).getLast? with
  | some x => (!x.isEmpty && x.all digit) || (ipv4Number x).isSome
  | none => false

/-- A number in decimal. Used by src/config.rs:291-317, src/server/request_token.rs:53, src/server/http_server.rs:350
(`Url::parse`). -/
def decimal (n : Nat) : List Char := Nat.toDigits 10 n

/-- An IPv4 address: up to four numbers, of which the last takes the remaining bytes. Used by src/config.rs:291-317,
src/server/request_token.rs:53, src/server/http_server.rs:350 (`Url::parse`). -/
def ipv4 (d : List Char) : Option Nat :=
  match (parts d).mapM ipv4Number with
  | none => none
  | some ns =>
    if ns.length > 4 || ns.isEmpty then none
    else if ns.dropLast.any (fun n => decide (255 < n)) then none
    else if ns.getLastD 0 ≥ 256 ^ (5 - ns.length) then none
    else some ((ns.dropLast.zipIdx.map fun (n, i) => n * 256 ^ (3 - i)).sum + ns.getLastD 0)

/-- An IPv4 address as text. Used by src/config.rs:291-317, src/server/request_token.rs:53,
src/server/http_server.rs:350 (`Url::parse`). -/
def ipv4Text (n : Nat) : List Char :=
  decimal (n / 256 ^ 3 % 256) ++ '.' :: decimal (n / 256 ^ 2 % 256) ++ '.' :: decimal (n / 256 % 256) ++
    '.' :: decimal (n % 256)

/-- `Host::parse` and the serialisation of its result. Used by src/config.rs:291-317, src/server/request_token.rs:53,
src/server/http_server.rs:350 (`Url::parse`). -/
def host (L : Lib) (l : List Char) : Option (List Char) :=
  match l with
  | [] => none
  | '[' :: r =>
    if r.getLast? = some ']' then (L.ipv6 r.dropLast).map fun a => '[' :: a ++ [']'] else none
  | l =>
    match domain L (Form.lossy (Form.percentDecode (utf8 (String.ofList l)))).toList with
    | none => none
    | some d => if endsInNumber d then (ipv4 d).map ipv4Text else some d

/-- The port, from the `:` on (`some none`: there is none, or it is the default port). Used by src/config.rs:291-317,
src/server/request_token.rs:53, src/server/http_server.rs:350 (`Url::parse`). -/
def port (dflt : Nat) (l : List Char) : Option (Option Nat) :=
  match l with
  | [] => some none
  | _ :: ds =>
    if ds.all digit then
      if ds.isEmpty then some none
      else if number 10 ds > 65535 then none
      else if number 10 ds = dflt then some none
      else some (some (number 10 ds))
    else none

/-- The pieces between slashes. Used by src/config.rs:291-317, src/server/request_token.rs:53,
src/server/http_server.rs:350 (`Url::parse`). -/
def segments : List Char → List (List Char)
  | [] => [[]]
  | c :: r =>
    if slash c then [] :: segments r
    else match segments r with
      | x :: xs => (c :: x) :: xs
      | [] => [[c]]

/-- Segments which mean a dot: `.`, or `%2e`. Used by src/config.rs:291-317, src/server/request_token.rs:53,
src/server/http_server.rs:350 (`Url::parse`). -/
def dots (l : List Char) : Option Nat :=
  let l := l.map Char.toLower
  if l = ".".toList ∨ l = "%2e".toList then some 1
  else if l = "..".toList ∨ l = ".%2e".toList ∨ l = "%2e.".toList ∨ l = "%2e%2e".toList then some 2
  else none

/-- The path, in reverse order. Used by src/config.rs:291-317, src/server/request_token.rs:53,
src/server/http_server.rs:350 (`Url::parse`). -/
def normalise : List (List Char) → List (List Char) → List (List Char)
  | acc, [] => acc
  | acc, s :: r =>
    match dots s with
    | some 1 => normalise (if r.isEmpty then [] :: acc else acc) r
    | some _ => normalise (if r.isEmpty then [] :: acc.tail else acc.tail) r
    | none => normalise (percentEncode inPath s :: acc) r

/-- The path as text. Used by src/config.rs:291-317, src/server/request_token.rs:53, src/server/http_server.rs:350
(`Url::parse`). -/
def path (l : List Char) : List Char :=
  match (normalise [] (segments (l.drop 1))).reverse with
  | [] => ['/']
  | ss => ss.flatMap ('/' :: ·)

/-- What comes after the authority: path, query, fragment. Used by src/config.rs:291-317,
src/server/request_token.rs:53, src/server/http_server.rs:350 (`Url::parse`). -/
def tail (l : List Char) : List Char × Option (List Char) × Option (List Char) :=
  let f := l.takeWhile (· != '#')
  let frag := if f.length = l.length then none else some (percentEncode inFragment (l.drop (f.length + 1)))
  let p := f.takeWhile (· != '?')
  let query := if p.length = f.length then none else some (percentEncode inQuery (f.drop (p.length + 1)))
  (path p, query, frag)

/-- A URL with the scheme http or https, as text, in its parts. Used by src/config.rs:291-317,
src/server/request_token.rs:53, src/server/http_server.rs:350 (`Url::parse`). -/
structure Parts where
  scheme : List Char
  userinfo : List Char
  host : List Char
  port : Option Nat
  path : List Char
  query : Option (List Char)
  fragment : Option (List Char)
deriving DecidableEq, Repr

/-- After `http:` or `https:`. Used by src/config.rs:291-317, src/server/request_token.rs:53,
src/server/http_server.rs:350 (`Url::parse`). -/
def special (L : Lib) (s : List Char) (l : List Char) : Option Parts :=
  let l := l.dropWhile slash
  let auth := l.takeWhile (!ender ·)
  let (ui, hp) := cutLast '@' auth
  let (h, p) := hostEnd false hp
  match host L h, port (if s = "http".toList then 80 else 443) p with
  | some h, some p =>
    let (pa, q, f) := tail (l.drop auth.length)
    some { scheme := s, userinfo := userinfo (ui.getD []), host := h, port := p, path := pa, query := q, fragment := f }
  | _, _ => none

/-- Query and fragment, with their marks. Used by src/config.rs:291-317, src/server/request_token.rs:53,
src/server/http_server.rs:350 (`Url::parse`). -/
def marked (c : Char) : Option (List Char) → List Char
  | none => []
  | some l => c :: l

/-- The `Url` of `Model/Env.lean`. Used by src/config.rs:291-317, src/server/request_token.rs:53,
src/server/http_server.rs:350 (`Url::parse`). -/
def Parts.url (p : Parts) : Url :=
  { scheme := String.ofList p.scheme
    host := some (String.ofList p.host)
    port := p.port
    rest := String.ofList (p.userinfo ++ '\n' :: p.path ++ '\n' :: marked '?' p.query ++ '\n' :: marked '#' p.fragment)
    query := Form.queryPairs (p.query.map fun q => utf8 (String.ofList q)) }

/-- `Url::parse`. Used by src/config.rs:291-317, src/server/request_token.rs:53, src/server/http_server.rs:350
(`Url::parse`). -/
def parse (L : Lib) (s : String) : Option Url :=
  match scheme (clean s.toList) with
  | none => none
  | some (sch, r) =>
    if sch = "http".toList ∨ sch = "https".toList then (special L sch r).map Parts.url
    else (L.other s).map fun u => { u with scheme := String.ofList sch }

/-- The pieces between newlines. Used by src/config.rs:291-317, src/server/request_token.rs:53,
src/server/http_server.rs:350 (`Url::parse`). -/
def pieces : List Char → List (List Char)
  | [] => [[]]
  | c :: r =>
    if c = '\n' then [] :: pieces r
    else match pieces r with
      | x :: xs => (c :: x) :: xs
      | [] => [[c]]

/-- ASCII bytes as characters. Used by src/config.rs:291-317, src/server/request_token.rs:53,
src/server/http_server.rs:350 (`Url::parse`). -/
def ascii (b : Bytes) : List Char := b.map fun x => Char.ofNat x.toNat

/-- The text of the port. Used by src/config.rs:291-317, src/server/request_token.rs:53, src/server/http_server.rs:350
(`Url::parse`). -/
def portText : Option Nat → List Char
  | none => []
  | some n => ':' :: decimal n

/-- The query of a URL whose text has the query `q` (with its mark), to which pairs were added. Used by
src/config.rs:291-317, src/server/request_token.rs:53, src/server/http_server.rs:350 (`Url::parse`). -/
def queryText (q : List Char) (query : List (String × String)) : List Char :=
  let old := match q with
    | [] => none
    | _ :: r => some (utf8 (String.ofList r))
  let extra := query.drop (Form.queryPairs old).length
  if extra.isEmpty then q else '?' :: ascii (Form.withParams old extra)

/-- `Url::to_string`. Used by src/config.rs:291-317, src/server/request_token.rs:53, src/server/http_server.rs:350
(`Url::parse`). -/
def render (u : Url) : String :=
  match pieces u.rest.toList, u.host with
  | [ui, pa, q, f], some h =>
    String.ofList (u.scheme.toList ++ "://".toList ++ ui ++ h.toList ++ portText u.port ++ pa ++ queryText q u.query ++ f)
  | _, _ => ""

end UrlStd

/-- An environment with the URL standard. Used by src/config.rs:291-317, src/server/request_token.rs:53,
src/server/http_server.rs:350 (`Url::parse`). -/
def Env.withUrls (E : Env) (L : UrlStd.Lib) : Env := { E with parseUrl := UrlStd.parse L, renderUrl := UrlStd.render }

end Pizauth

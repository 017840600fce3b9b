import Verif.Model.UrlStd

/-!
# IPv6 addresses in URLs

`parse_ipv6addr` and `write_ipv6` of the crate `url` 2.5.4 (src/host.rs), modelled from the IPv6 parser and serializer of the
URL standard (https://url.spec.whatwg.org/#concept-ipv6-parser), which they implement. The code keeps the pieces in an array
of eight and moves those after `::` to its end; here the pieces before and after `::` are two lists.
-/

namespace Pizauth
namespace UrlStd
namespace Ipv6

/-- A number of an embedded IPv4 address: without leading zeros, at most 255. Used by src/config.rs:291-317
(`Url::parse`). -/
def quad (l : List Char) : Option Nat :=
  match l with
  | [] => none
  | c :: r =>
    if !(c :: r).all digit then none
    else if c = '0' ∧ r ≠ [] then none
    else if number 10 (c :: r) > 255 then none
    else some (number 10 (c :: r))

/-- An embedded IPv4 address, as two pieces. Used by src/config.rs:291-317 (`Url::parse`). -/
def quads (l : List Char) : Option (List Nat) :=
  match (labels l).mapM quad with
  | some [a, b, c, d] => some [a * 256 + b, c * 256 + d]
  | _ => none

/-- `piece_pointer`: how many pieces there are, `::` counted as one. Used by src/config.rs:291-317 (`Url::parse`). -/
def pointer (pre : Option (List Nat)) (cur : List Nat) : Nat :=
  match pre with
  | none => cur.length
  | some p => p.length + 1 + cur.length

/-- The main loop. `pre` are the pieces before `::`, if there was one. The first argument is at least the number of
characters that are left. Used by src/config.rs:291-317 (`Url::parse`). -/
def loop : Nat → List Char → Option (List Nat) → List Nat → Option (Option (List Nat) × List Nat)
  | _, [], pre, cur => some (pre, cur)
  | 0, _ :: _, _, _ => none
  | k + 1, c :: r, pre, cur =>
    if pointer pre cur = 8 then none
    else if c = ':' then
      match pre with
      | some _ => none
      | none => loop k r (some cur) []
    else
      let h := ((c :: r).take 4).takeWhile hexDigit
      match (c :: r).drop h.length with
      | [] => some (pre, cur ++ [number 16 h])
      | d :: r' =>
        if d = '.' then
          if h = [] ∨ pointer pre cur > 6 then none
          else (quads (c :: r)).map fun q => (pre, cur ++ q)
        else if d = ':' then
          if r' = [] then none else loop k r' pre (cur ++ [number 16 h])
        else none

/-- The end of `parse_ipv6addr`. Used by src/config.rs:291-317 (`Url::parse`). -/
def finish : Option (List Nat) × List Nat → Option (List Nat)
  | (some p, cur) => some (p ++ List.replicate (8 - p.length - cur.length) 0 ++ cur)
  | (none, cur) => if cur.length = 8 then some cur else none

/-- `parse_ipv6addr`: the eight pieces of an address. Used by src/config.rs:291-317 (`Url::parse`). -/
def parse (l : List Char) : Option (List Nat) :=
  if l.length < 2 then none
  else
    match l with
    | ':' :: r =>
      match r with
      | ':' :: r' => (loop r'.length r' (some []) []).bind finish
      | _ => none
    | l => (loop l.length l none []).bind finish

/-- How many zeros there are from piece `i` on. Used by src/config.rs:291-317 (`Url::parse`). -/
def zerosAt (a : List Nat) (i : Nat) : Nat := ((a.drop i).takeWhile (· == 0)).length

/-- `longest_zero_sequence`: where the first of the longest sequences of zeros starts, and its length. Used by
src/config.rs:291-317 (`Url::parse`). -/
def longest (a : List Nat) : Nat × Nat :=
  (List.range a.length).foldl (fun best i => if zerosAt a i > best.2 then (i, zerosAt a i) else best) (0, 0)

/-- Pieces in hexadecimal, with colons between them. Used by src/config.rs:291-317 (`Url::parse`). -/
def join : List Nat → List Char
  | [] => []
  | [n] => Nat.toDigits 16 n
  | n :: r => Nat.toDigits 16 n ++ ':' :: join r

/-- `write_ipv6`. Used by src/config.rs:291-317 (`Url::parse`). -/
def text (a : List Nat) : List Char :=
  let (s, n) := longest a
  if n < 2 then join a else join (a.take s) ++ ':' :: ':' :: join (a.drop (s + n))

/-- The address between brackets, in its canonical form. Used by src/config.rs:291-317 (`Url::parse`). -/
def canonical (l : List Char) : Option (List Char) := (parse l).map text

end Ipv6
end UrlStd
end Pizauth

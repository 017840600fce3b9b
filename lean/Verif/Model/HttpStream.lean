import Verif.Model.Http

/-!
# Reading an HTTP request while it arrives

`parseGet` (Model/Http.lean) has all bytes which a client ever sends. Here is `parse_get` (src/server/http_server.rs:282-356)
when some bytes have arrived and the client may or may not have closed its side: `read_line` waits until there is a newline
or the end.
-/

namespace Pizauth

/-- Does `read_line` return? src/server/http_server.rs:285,304. -/
def lineReady (b : Bytes) (eof : Bool) : Bool := eof || b.contains 10

/-- The loop at src/server/http_server.rs:298-323 (see `headerLoopN`). `none`: it waits. -/
def streamLoopN : Nat → Bytes → Bool → Nat → List (List Char) → Option (Option (List (List Char)))
  | 0, _, _, _, _ => some none
  | fuel + 1, b, eof, size, req =>
    if maxHttpRequestSize ≤ size then some none
    else if !lineReady b eof then none
    else
      match readLine b with
      | none => some none
      | some (line, b') =>
        if isBlank line then some (some req)
        else
          let size' := size + (splitLine b).1.length
          match line with
          | ' ' :: _ | '\t' :: _ =>
            match pushCont req line with
            | none => some none
            | some req' => streamLoopN fuel b' eof size' req'
          | _ => streamLoopN fuel b' eof size' (trimEnd line :: req)

/-- The end of `parse_get`, src/server/http_server.rs:325-355. -/
def requestUri (E : Env) (isHttps : Bool) (path : List Char) (req : List (List Char)) : Option Url :=
  match findHost req.reverse none with
  | some (some h) => E.parseUrl ((if isHttps then "https" else "http") ++ "://" ++ String.ofList h ++ String.ofList path)
  | _ => none

/-- `parse_get`, src/server/http_server.rs:282-356, when the bytes `b` have arrived. `none`: it waits for more. -/
def streamGet (E : Env) (b : Bytes) (eof isHttps : Bool) : Option (Option Url) :=
  if !lineReady b eof then none
  else
    match readLine b with
    | none => some none
    | some (reqLine, b') =>
      match parseReqLine reqLine with
      | none => some none
      | some path =>
        match streamLoopN (b'.length + 1) b' eof (splitLine b).1.length [] with
        | none => none
        | some none => some none
        | some (some req) => some (requestUri E isHttps path req)

end Pizauth

import Verif.Model.Prelude

/-!
# The request protocol on the Unix socket (src/server/mod.rs:79-302, src/user_sender.rs)
-/

namespace Pizauth

/-- A request after parsing, src/server/mod.rs:98-302. -/
inductive Req where
  | dump
  | info
  | reload
  | refresh (withUrl : Bool) (act : String)
  | restore (d : Bytes)
  | revoke (act : String)
  | showtoken (withUrl : Bool) (act : String)
  | shutdown
  | status
  /-- an unknown command word: answered with an error -/
  | unknown (cmd : String)
  /-- no `:`, or not UTF-8, or a malformed argument: not answered at all -/
  | invalid
deriving DecidableEq, Repr

/-- The byte `:`, src/server/mod.rs:86. -/
def colon : UInt8 := 58

/-- `rest.splitn(2, ' ')` when it yields exactly two parts, src/server/mod.rs:137,195. -/
def splitSpace (s : String) : Option (String × String) :=
  let l := s.toList
  let a := l.takeWhile (· != ' ')
  if a.length = l.length then none
  else some (String.ofList a, String.ofList (l.drop (a.length + 1)))

/-- The argument of `refresh` and `showtoken`, src/server/mod.rs:136-137,150,194-195,208. -/
def parseUrlArg (mk : Bool → String → Req) (rest : Bytes) : Req :=
  match fromUtf8 rest with
  | none => .invalid
  | some s =>
    match splitSpace s with
    | none => .invalid
    | some (wu, act) => mk (wu == "withurl") act

/-- Parsing of a request, src/server/mod.rs:82-299 (which arm is taken and with which arguments). -/
def parseReq (buf : Bytes) : Req :=
  let len := (buf.takeWhile (· != colon)).length
  if len = buf.length then .invalid
  else
    match fromUtf8 (buf.take len) with
    | none => .invalid
    | some cmd =>
      let rest := buf.drop (len + 1)
      if cmd = "dump" ∧ rest = [] then .dump
      else if cmd = "info" ∧ rest = [] then .info
      else if cmd = "reload" ∧ rest = [] then .reload
      else if cmd = "refresh" then parseUrlArg .refresh rest
      else if cmd = "restore" then .restore rest
      else if cmd = "revoke" then
        match fromUtf8 rest with
        | none => .invalid
        | some act => .revoke act
      else if cmd = "showtoken" then parseUrlArg .showtoken rest
      else if cmd = "shutdown" ∧ rest = [] then .shutdown
      else if cmd = "status" ∧ rest = [] then .status
      else .unknown cmd

/-! ## The client side, src/user_sender.rs -/

/-- The word sent for the `-u` flag, src/user_sender.rs:41,120 (`with_url` is `false` when `-u` is given). -/
def withUrlWord (withUrl : Bool) : String := if withUrl then "withurl" else "withouturl"

/-- A user command, src/main.rs. -/
inductive Cmd where
  | dump
  | info
  | refresh (act : String) (withUrl : Bool)
  | reload
  | restore (stdin : Bytes)
  | revoke (act : String)
  | show (act : String) (withUrl : Bool)
  | shutdown
  | status
deriving DecidableEq, Repr

/-- The bytes the client writes to the socket, src/user_sender.rs:16,30,45,66,86-88,105,124,148,158. -/
def Cmd.wire : Cmd → Bytes
  | .dump => utf8 "dump:"
  | .info => utf8 "info:"
  | .refresh act wu => utf8 ("refresh:" ++ withUrlWord wu ++ " " ++ act)
  | .reload => utf8 "reload:"
  | .restore d => utf8 "restore:" ++ d
  | .revoke act => utf8 ("revoke:" ++ act)
  | .show act wu => utf8 ("showtoken:" ++ withUrlWord wu ++ " " ++ act)
  | .shutdown => utf8 "shutdown:"
  | .status => utf8 "status:"

/-- What the client does with the answer: success with something printed, or an error message,
src/user_sender.rs:39-60,118-141. -/
inductive ClientRes where
  | ok (stdout : Option String)
  | err (msg : String)
deriving DecidableEq, Repr

/-- `rtn.splitn(2, ':')`: `some (a, b)` when it yields two parts, src/user_sender.rs:39-60,118-141. -/
def splitColon (s : String) : Option (String × String) :=
  let l := s.toList
  let a := l.takeWhile (· != ':')
  if a.length = l.length then none
  else some (String.ofList a, String.ofList (l.drop (a.length + 1)))

/-- The final error arm, e.g. src/user_sender.rs:57. -/
def malformed (rtn : String) : ClientRes := .err ("Malformed response '" ++ rtn ++ "'")

/-- The message for `pending`, src/user_sender.rs:53,136. -/
def pendingMsg (url : String) : String := "Access token unavailable until authorised with URL " ++ url

/-- The client's treatment of the answer for the text-protocol commands, src/user_sender.rs:51-58,72-76,93-97,
111-115,130-140,164-171. An answer that is not UTF-8 is an error (`read_to_string`). `dump` and `info` are not
text commands and `shutdown` reads no answer; they are not treated here. -/
def Cmd.readReply (c : Cmd) (b : Bytes) : ClientRes :=
  match fromUtf8 b with
  | none => .err "stream did not contain valid UTF-8"
  | some rtn =>
    match c, splitColon rtn with
    | .refresh _ _, some ("pending", url) => .err (pendingMsg url)
    | .refresh _ _, some ("scheduled", "") => .ok none
    | .refresh _ _, some ("error", cause) => .err cause
    | .show _ _, some ("access_token", x) => .ok (some x)
    | .show _ _, some ("pending", url) => .err (pendingMsg url)
    | .show _ _, some ("error", cause) => .err cause
    | .reload, some ("ok", "") => .ok none
    | .reload, some ("error", cause) => .err cause
    | .restore _, some ("ok", "") => .ok none
    | .restore _, some ("error", cause) => .err cause
    | .revoke _, some ("ok", "") => .ok none
    | .revoke _, some ("error", cause) => .err cause
    | .status, some ("ok", x) => .ok (some x)
    | .status, some ("error", cause) => .err cause
    | _, _ => malformed rtn

end Pizauth

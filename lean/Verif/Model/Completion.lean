import Verif.Model.Info
import Verif.Model.Syntax

/-!
# Completion of command lines

share/bash/completion.bash; the accounts are found in the same way in share/fish/pizauth.fish, and then unquoted. What
`compgen` does with the words (it leaves out those which do not begin with what was typed so far, and removes quotes) is left
out, as is the completion of file names, and whatever else share/fish/pizauth.fish has.
-/

namespace Pizauth.Completion

/-- The lines of a file, as `sed` and `awk` read them, share/bash/completion.bash:16-17. -/
def lines : List Char → List (List Char)
  | [] => []
  | c :: r =>
    if c = '\n' then [] :: lines r
    else
      match lines r with
      | [] => [[c]]
      | l :: ls => if r.isEmpty then [[c]] else (c :: l) :: ls

/-- What is before and after the last `" {"`, share/bash/completion.bash:17. -/
def lastBrace : List Char → Option (List Char × List Char)
  | [] => none
  | c :: r =>
    match lastBrace r with
    | some (x, y) => some (c :: x, y)
    | none =>
      match c, r with
      | ' ', '{' :: y => some ([], y)
      | _, _ => none

/-- `s/^account \(.*\) {/\1/`, share/bash/completion.bash:17 -/
def substitute (line : List Char) : List Char :=
  if "account ".toList.isPrefixOf line then
    match lastBrace (line.drop 8) with
    | some (x, y) => x ++ y
    | none => line
  else line

/-- `sed -n '/^account/{s/^account \(.*\) {/\1/;p}'`, share/bash/completion.bash:17, share/fish/pizauth.fish:5 -/
def accounts (file : List Char) : List (List Char) :=
  ((lines file).filter ("account".toList.isPrefixOf ·)).map substitute

/-- `string unescape` of what follows a double quote, share/fish/pizauth.fish:5; `none`: there is no second quote, or something
after it (which is left out). -/
def fishQuoted : List Char → Option (List Char)
  | [] => none
  | [c] => if c = '"' then some [] else none
  | c :: d :: r =>
    if c = '"' then none
    else if c = '\\' then
      if d = '\\' ∨ d = '"' ∨ d = '$' then (fishQuoted r).map (d :: ·) else (fishQuoted r).map (fun x => c :: d :: x)
    else (fishQuoted (d :: r)).map (c :: ·)

/-- The word which is offered for a line, share/fish/pizauth.fish:3-6,33,36: what comes after a tab is shown as a description. -/
def fishWord : List Char → Option (List Char)
  | '"' :: r => (fishQuoted r).map (·.takeWhile (· ≠ '\t'))
  | _ => none

/-- Without the spaces at its end, share/bash/completion.bash:16. -/
def trimEnd (l : List Char) : List Char := (l.reverse.dropWhile (· = ' ')).reverse

/-- The first two fields of a line, if ` *: *` separates fields; `none`: there is one field only,
share/bash/completion.bash:16. -/
def fields (line : List Char) : List Char × Option (List Char) :=
  let a := line.takeWhile (· ≠ ':')
  match line.drop a.length with
  | [] => (line, none)
  | _ :: r =>
    let b := r.dropWhile (· = ' ')
    let v := b.takeWhile (· ≠ ':')
    (trimEnd a, some (if v = b then b else trimEnd v))

/-- Does `p` occur in `l`? share/bash/completion.bash:16. -/
def contains (p : List Char) : List Char → Bool
  | [] => p.isEmpty
  | c :: r => p.isPrefixOf (c :: r) || contains p r

/-- `awk -F' *: *' '$1 ~ /config file/ { print $2 }'`, share/bash/completion.bash:16, share/fish/pizauth.fish:4 -/
def configFiles (info : List Char) : List (List Char) :=
  (lines info).filterMap fun l => if contains "config file".toList (fields l).1 then some ((fields l).2.getD []) else none

/-- What is offered after the words `ws` (without the name of the program), share/bash/completion.bash:19-76. The first word
is the command; `accs` are the accounts. -/
def offers (accs : List String) (ws : List String) : List String :=
  match ws with
  | [] => ["dump", "restore", "reload", "shutdown", "status", "info", "server", "refresh", "revoke", "show"]
  | sub :: rest =>
    if sub = "server" then
      -- `_server`, share/bash/completion.bash:2-12; after `-c` files are offered
      if rest.getLast? = some "-c" then [] else ["-c", "-d", "-v", "-vv", "-vvv", "-vvvv"]
    else
      match rest with
      | [] =>
        if sub = "info" then ["-j"]
        else if sub = "refresh" ∨ sub = "show" then accs ++ ["-u"]
        else if sub = "revoke" then accs
        else []
      | [prev] => if (sub = "refresh" ∨ sub = "show") ∧ prev = "-u" then accs else []
      | _ => []

end Pizauth.Completion

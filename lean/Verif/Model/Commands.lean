import Verif.Model.Server

/-!
# How the commands of the configuration are run

`Model/Server.lean` and `Model/World.lean` say when a command is run; this file says how. Times are in seconds.

Simplifications: what commands print is not modelled. A process which ends exactly at a timeout ends in time. Killing a
process succeeds (processes which it has started itself are not killed).
-/

namespace Pizauth.Commands

/-- A process: the program, its arguments, the environment variables which are set for it, and whether it is cut off from
stdin, stdout and stderr, src/server/eventer.rs:78-82. -/
structure Process where
  prog : String
  args : List String
  env : List (String × String)
  quiet : Bool
deriving DecidableEq, Repr

/-- What becomes of a process, src/server/eventer.rs:84-103. -/
inductive Fate where
  /-- it cannot be started (`spawn` fails) -/
  | unstartable (msg : String)
  /-- it ends after so many seconds, with an exit code, or by a signal -/
  | ends (after : Nat) (code : Option Int)
  /-- it does not end by itself -/
  | endless
  /-- waiting for it fails -/
  | unwaitable (msg : String)
deriving DecidableEq, Repr

/-- For `spawn`, src/server/eventer.rs:82. -/
def hasNul (s : String) : Bool := s.toList.contains (Char.ofNat 0)

/-- `Command::new(s).env(…).args(["-c", cmd]).spawn()`: strings with NUL characters cannot be passed,
src/server/eventer.rs:78-82. -/
def start (shell cmd : String) (env : List (String × String)) (quiet : Bool) : Except String Process :=
  if hasNul shell || hasNul cmd || env.any (fun kv => hasNul kv.2) then .error "nul byte found in provided data"
  else .ok ⟨shell, ["-c", cmd], env, quiet⟩

/-- `env::var("SHELL")`, src/server/notifier.rs:88-89 and others; `none` also for values which are not UTF-8. -/
abbrev Shell := Option String

/-- `env::var("SHELL")` fails, src/server/eventer.rs:76,107. -/
def noShell : String := "environment variable not found"

/-- `auth_notify_cmd`, src/server/notifier.rs:87-110. It has its own thread, which waits for it as long as it takes. -/
def authNotify (shell : Shell) (cmd act url : String) : Except String Process :=
  match shell with
  | none => .error noShell
  | some s => start s cmd [("PIZAUTH_ACCOUNT", act), ("PIZAUTH_URL", url)] false

/-- `error_notify_cmd`, src/server/notifier.rs:142-165. It has its own thread, which waits for it as long as it takes. -/
def errorNotify (shell : Shell) (cmd act msg : String) : Except String Process :=
  match shell with
  | none => .error noShell
  | some s => start s cmd [("PIZAUTH_ACCOUNT", act), ("PIZAUTH_MSG", msg)] false

/-- `NEW_ACCESS_TOKEN_CMD_TIMEOUT`, src/server/eventer.rs:18 -/
def eventTimeout : Nat := 30

/-- `TRANSIENT_ERROR_IF_CMD_TIMEOUT`, src/server/refresher.rs:27 -/
def transientTimeout : Nat := 3 * 60

/-- What a thread gets which runs a command and waits for it: the process, if one was started; for how long; whether it
was killed; and how it went, src/server/eventer.rs:78-108. -/
structure Ran where
  process : Option Process
  time : Nat
  killed : Bool
  result : Except String Unit

/-- The exit code in messages, src/server/eventer.rs:90-93. -/
def codeText : Option Int → String
  | some c => toString c
  | none => "<Unknown exit code>"

/-- Running a command and waiting for it, src/server/refresher.rs:168-201 and src/server/eventer.rs:76-108 (where the
error is logged, and the word `returned` is not followed by `>` for processes killed by a signal). -/
def runAndWait (timeout : Nat) (shell : Shell) (cmd : String) (env : List (String × String)) (quiet : Bool)
    (fate : Fate) : Ran :=
  match shell with
  | none => ⟨none, 0, false, .error noShell⟩
  | some s =>
    match start s cmd env quiet, fate with
    | .error e, _ | _, .unstartable e => ⟨none, 0, false, .error ("Couldn't execute '" ++ cmd ++ "': " ++ e)⟩
    | .ok p, .unwaitable e => ⟨some p, 0, false, .error ("Waiting on '" ++ cmd ++ "' failed: " ++ e)⟩
    | .ok p, .endless => ⟨some p, timeout, true, .error ("'" ++ cmd ++ "' exceeded timeout")⟩
    | .ok p, .ends after code =>
      if after ≤ timeout then
        ⟨some p, after, false,
          if code = some 0 then .ok () else .error ("'" ++ cmd ++ "' returned " ++ codeText code)⟩
      else ⟨some p, timeout, true, .error ("'" ++ cmd ++ "' exceeded timeout")⟩

/-- `token_event_cmd`, src/server/eventer.rs:76-108: the event thread waits for it. The result is only logged. -/
def tokenEvent (shell : Shell) (cmd act : String) (e : TokenEvent) (fate : Fate) : Ran :=
  runAndWait eventTimeout shell cmd [("PIZAUTH_ACCOUNT", act), ("PIZAUTH_EVENT", e.text)] false fate

/-- `transient_error_if_cmd`, `run_not_transient_error_if`, src/server/refresher.rs:167-202: the thread which refreshes
waits for it. -/
def transientErrorIf (shell : Shell) (cmd act : String) (fate : Fate) : Ran :=
  runAndWait transientTimeout shell cmd [("PIZAUTH_ACCOUNT", act)] true fate

end Pizauth.Commands

import Verif.Model.Reports

/-!
# Specification: failures of commands
-/

namespace Pizauth

/-- A command has failed unless it has ended with exit code 0. -/
def CmdOutcome.failure : CmdOutcome → Bool
  | .exited (some 0) _ _ => false
  | _ => true

/-- `l` is about a failure of the command of account `n`. -/
inductive FailureText (shell : Commands.Shell) (n cmd : String) : CmdOutcome → String → Prop where
  /-- there is no shell -/
  | noShell (e : String) : shell = none → FailureText shell n cmd (.failed e) e
  | failed (e : String) : shell ≠ none → FailureText shell n cmd (.failed e) (n ++ ": error when running '" ++ cmd ++ "': " ++ e)
  /-- what it printed to stdout -/
  | printed (code : Option Int) (text : String) (err : Bytes) :
    FailureText shell n cmd (.exited code (utf8 text) err) (n ++ ": error when running '" ++ cmd ++ "': " ++ text)
  /-- what it printed to stdout is not text -/
  | unprintable (code : Option Int) (out err : Bytes) (s : String) : (∀ t, out ≠ utf8 t) →
    s = "<stderr not representable as UTF-8" ∨ s = "<stderr not representable as UTF-8>" →
    FailureText shell n cmd (.exited code out err) (n ++ ": error when running '" ++ cmd ++ "': " ++ s)

/-- The account and the command of a job. -/
def Job.about : Job → String × String
  | .auth cmd n _ => (n, cmd)
  | .error cmd n _ => (n, cmd)

end Pizauth

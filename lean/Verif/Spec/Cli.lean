import Verif.Model.Cli

/-!
# Specification: which command lines mean what
-/

namespace Pizauth.Cli

/-- What looks like an option: it starts with `-`, but is not just `-`. -/
def isOption (a : String) : Bool := a.toList.head? == some '-' && a != "-"

/-- The options among the arguments, up to `--`. -/
def options (args : List String) : List String := (args.takeWhile (· != "--")).filter isOption

/-- The other arguments; everything after `--` is one. -/
def others (args : List String) : List String :=
  (args.takeWhile (· != "--")).filter (fun x => !isOption x) ++ (args.dropWhile (· != "--")).drop 1

/-- The letters an option stands for: `-vu`, or `--verbose`, or also `--v`. -/
def lettersOf (x : String) : Option (List Char) :=
  if x = "--verbose" then some ['v']
  else if x = "--help" then some ['h']
  else
    match x.toList with
    | ['-', '-', c] => some [c]
    | '-' :: '-' :: _ => none
    | '-' :: cs => some cs
    | _ => none

/-- All letters of the options, if all of them are among `known`. -/
def AllLetters (known : List Char) (args : List String) (l : List Char) : Prop :=
  (∀ x ∈ options args, lettersOf x ≠ none) ∧ l = (options args).flatMap (fun x => (lettersOf x).getD []) ∧
  ∀ c ∈ l, c ∈ known

/-- The arguments of `server` and `info`: `Given flags args items others` if the arguments `args` consist of the options
`items`, with their arguments, and the other arguments `others`. The letter `c` (or `config`) may have an argument, the
letters `flags` have none. -/
inductive Given (flags : List Char) : List String → List (Char × Option String) → List String → Prop
  | nil : Given flags [] [] []
  | other {a r items o} : isOption a = false → Given flags r items o → Given flags (a :: r) items (a :: o)
  | rest {r} : Given flags ("--" :: r) [] r
  /-- letters without argument -/
  | letters {a r l items o} : isOption a = true → lettersOf a = some l → (∀ c ∈ l, c ∈ flags) → Given flags r items o →
      Given flags (a :: r) (l.map (·, none) ++ items) o
  /-- `--config` never takes the following argument … -/
  | long {a r items o} : a = "--config" ∨ a = "--c" → Given flags r items o → Given flags (a :: r) (('c', none) :: items) o
  /-- … it has to be given with `=` -/
  | longArg {p a r items o} : a = "--config=" ++ p ∨ a = "--c=" ++ p → Given flags r items o →
      Given flags (a :: r) (('c', some p) :: items) o
  /-- `-cpath` -/
  | tight {l p a r items o} : (∀ c ∈ l, c ∈ flags) → p ≠ "" → a = "-" ++ String.ofList l ++ "c" ++ p →
      Given flags r items o → Given flags (a :: r) (l.map (·, none) ++ ('c', some p) :: items) o
  /-- `-c path` -/
  | loose {l p a r items o} : (∀ c ∈ l, c ∈ flags) → a = "-" ++ String.ofList l ++ "c" → isOption p = false →
      Given flags r items o → Given flags (a :: p :: r) (l.map (·, none) ++ ('c', some p) :: items) o
  /-- `-c` at the end or before another option -/
  | bare {l a r items o} : (∀ c ∈ l, c ∈ flags) → a = "-" ++ String.ofList l ++ "c" → (∀ p ∈ r.head?, isOption p = true) →
      Given flags r items o → Given flags (a :: r) (l.map (·, none) ++ ('c', none) :: items) o

/-- What a command line means, for the commands which make a request. `v` is the verbosity. -/
def Means (args : List String) (stdin : Bytes) (c : Cmd) (v : Nat) : Prop :=
  ∃ cmd rest l, args = cmd :: rest ∧ l.count 'v' = v ∧
    match c with
    | .show n wu =>
      cmd = "show" ∧ others rest = [n] ∧ AllLetters ['v', 'u'] rest l ∧ l.count 'u' = if wu then 0 else 1
    | .refresh n wu =>
      cmd = "refresh" ∧ others rest = [n] ∧ AllLetters ['v', 'u'] rest l ∧ l.count 'u' = if wu then 0 else 1
    | .revoke n => cmd = "revoke" ∧ others rest = [n] ∧ AllLetters ['v'] rest l
    | .restore d => cmd = "restore" ∧ d = stdin ∧ others rest = [] ∧ AllLetters ['v'] rest l
    | .dump => cmd = "dump" ∧ others rest = [] ∧ AllLetters ['v'] rest l
    | .reload => cmd = "reload" ∧ others rest = [] ∧ AllLetters ['v'] rest l
    | .shutdown => cmd = "shutdown" ∧ others rest = [] ∧ AllLetters ['v'] rest l
    | .status => cmd = "status" ∧ others rest = [] ∧ AllLetters ['v'] rest l
    | .info => False

/-- The server's answers which mean that the command has succeeded. -/
def Success : Cmd → Bytes → Prop
  | .show _ _, b => ∃ tok, b = utf8 ("access_token:" ++ tok)
  | .refresh _ _, b => b = utf8 "scheduled:"
  | .status, b => ∃ x, b = utf8 ("ok:" ++ x)
  | .reload, b | .restore _, b | .revoke _, b => b = utf8 "ok:"
  | .dump, _ | .shutdown, _ => True
  | .info, _ => False

end Pizauth.Cli

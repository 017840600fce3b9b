import Verif.Model.Completion
import Verif.Spec.Grammar

/-!
# Specification: completion of command lines
-/

namespace Pizauth.Completion

/-- Tokens which are written on one line, with a space after each. -/
def onLine (ts : List Tok) : List Char := ts.flatMap fun t => t.text.toList ++ [' ']

/-- The body of an account: tokens on lines which are indented. -/
def onLines (ls : List (List Tok)) : List Char := ls.flatMap fun ts => '\n' :: ' ' :: ' ' :: onLine ts

/-- A configuration file in the layout of the manual: every account begins with a line `account "name" {`, the lines of its
body are indented, and every other setting is on a line of its own. (Literals do not extend over several lines.) -/
inductive Tidy : List Char → List TopLevel → Prop where
  | nil : Tidy [] []
  | account {n : String} {ls : List (List Tok)} {fs : List AccountField} {file : List Char} {l : List TopLevel} :
      IsStrLit n → '\n' ∉ n.toList → GAccountFields ls.flatten fs → (∀ t ∈ ls.flatten, TokOk t ∧ '\n' ∉ t.text.toList) → Tidy file l →
      Tidy ("account ".toList ++ n.toList ++ " {".toList ++ onLines ls ++ "\n}\n".toList ++ file) (.account n fs :: l)
  | other {ts : List Tok} {x : TopLevel} {file : List Char} {l : List TopLevel} :
      GTopLevel ts x → (∀ n fs, x ≠ .account n fs) → (∀ t ∈ ts, TokOk t ∧ '\n' ∉ t.text.toList) → Tidy file l →
      Tidy (onLine ts ++ '\n' :: file) (x :: l)

/-- The names of the accounts in a syntax tree, as they are written. -/
def names (l : List TopLevel) : List String :=
  l.filterMap fun
    | .account n _ => some n
    | _ => none

end Pizauth.Completion

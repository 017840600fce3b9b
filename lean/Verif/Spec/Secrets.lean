import Verif.Model.World

/-!
# Specification: who learns a token

Nobody learns a token from something which stays the same when the token is replaced by another one.
-/

namespace Pizauth

/-- Replace the access token (by `σ`) and the refresh token (by `τ`) in a token server's answer. -/
def JVal.subst (f : String → String) : JVal → JVal
  | .str s => .str (f s)
  | v => v

def Body.subst (σ τ : String → String) : Body → Body
  | .obj kvs => .obj (kvs.map fun kv =>
      if kv.1 = "access_token" then (kv.1, kv.2.subst σ) else if kv.1 = "refresh_token" then (kv.1, kv.2.subst τ) else kv)
  | .nonObj => .nonObj

def Net.subst (σ τ : String → String) : Net → Net
  | .body b => .body (b.subst σ τ)
  | n => n

/-- The same action, except that the token server grants other tokens. -/
def Action.subst (σ τ : String → String) : Action → Action
  | .run i inp => .run i { inp with net := inp.net.subst σ τ }
  | a => a

/-- `y` is `x` or its replacement. -/
def Repl (f : String → String) (x y : String) : Prop := y = x ∨ y = f x

/-- The same form, except perhaps for the refresh token in it. -/
def FormRepl (τ : String → String) (f f' : List (String × String)) : Prop :=
  f' = f ∨ ∃ pre x y post, f = pre ++ ("refresh_token", x) :: post ∧ f' = pre ++ ("refresh_token", y) :: post ∧ Repl τ x y

/-- The same observation, except perhaps for: the access token in an answer to `show`, the refresh token in a form sent
to a token server, and the tokens which a token server grants. -/
inductive ObsRepl (σ τ : String → String) : Obs → Obs → Prop where
  | same (o : Obs) : ObsRepl σ τ o o
  | shown {x y : String} : Repl σ x y →
      ObsRepl σ τ (.reply (utf8 ("access_token:" ++ x))) (.reply (utf8 ("access_token:" ++ y)))
  | sent {i : Nat} {u : String} {f f' : List (String × String)} : FormRepl τ f f' → ObsRepl σ τ (.post i u f) (.post i u f')
  | granted {i : Nat} {u : String} {f f' : List (String × String)} {n : Net} : FormRepl τ f f' →
      ObsRepl σ τ (.resp i u f n) (.resp i u f' (n.subst σ τ))

/-- The same history, except perhaps for that. -/
inductive LogRepl (σ τ : String → String) : List (Instant × Obs) → List (Instant × Obs) → Prop where
  | nil : LogRepl σ τ [] []
  | cons {t : Instant} {o o' : Obs} {l l' : List (Instant × Obs)} : ObsRepl σ τ o o' → LogRepl σ τ l l' →
      LogRepl σ τ ((t, o) :: l) ((t, o') :: l')

/-- A client asks for a dump. -/
def AsksDump (a : Action) : Prop := ∃ buf, a = .connect buf ∧ parseReq buf = .dump

end Pizauth

import Verif.Model.Startup

/-!
# What is said about starting servers
-/

namespace Pizauth.Start

/-- Nothing is running, and there is no socket file. -/
def Host.boot : Host := ⟨[], none, 0, 0⟩

/-- A history of actions leads from one state to another. -/
inductive Run : Host → List Act → Host → Prop where
  | nil (h : Host) : Run h [] h
  | cons {h h1 h2 : Host} {a : Act} {l : List Act} (hs : h.step a = some h1) (hr : Run h1 l h2) : Run h (a :: l) h2

/-- Process `p` accepts requests. -/
def Host.Serves (h : Host) (p : Nat) : Prop := ∃ x, h.procs[p]? = some x ∧ x.pc = .serving

/-- Process `p` is starting: it neither serves nor has ended. -/
def Host.Starting (h : Host) (p : Nat) : Prop := ∃ x, h.procs[p]? = some x ∧ x.pc ≠ .serving ∧ x.pc ≠ .ended

/-- At most one process is starting. -/
def Host.OneStarting (h : Host) : Prop := ∀ p q, h.Starting p → h.Starting q → p = q

/-- The run goes through such states only (its last one included). -/
inductive Run.All (P : Host → Prop) : {h h' : Host} → {l : List Act} → Run h l h' → Prop where
  | nil {h : Host} (hp : P h) : Run.All P (.nil h)
  | cons {h h1 h2 : Host} {a : Act} {l : List Act} {hs : h.step a = some h1} {hr : Run h1 l h2} (hp : P h)
      (ha : Run.All P hr) : Run.All P (.cons hs hr)

/-- What pizauth.1 says of the place of the configuration file: the one of `-c`, or the first of
`$XDG_CONFIG_HOME/pizauth.conf`, `$HOME/.config/pizauth.conf` which is there. -/
def manualConfPath (v : Vars) (f : Files) (c : Option Path) : Option Path :=
  let isFile : Path → Bool := fun p => match f.at_ p with
    | some n => !n.isDir
    | none => false
  c.or ((((v.xdgConfigHome.map (· ++ ["pizauth.conf"])).filter isFile)).or
    ((v.home.map (· ++ [".config", "pizauth.conf"])).filter isFile))

end Pizauth.Start

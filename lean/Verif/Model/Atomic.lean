import Verif.Model.Locks

/-!
# What threads do with shared data, one memory access at a time

In the rest of the model a critical section is one step. Here it is not: the threads of `Verif.Model.Locks` also have
data, and other threads may do something between any two accesses. `V` are the values of the data a lock protects, `L`
those of the variables of a thread, `E` what can be seen from outside (messages, requests and their answers, commands).

What a thread does with its data is arbitrary: a relation, so that a thread may also read a clock or a random number.
Rust's `Mutex` (src/server/state.rs:48, refresher.rs:45, notifier.rs:18, eventer.rs:39-41) gives access to the data only
to the thread which holds the lock.
-/

namespace Pizauth.Locks

/-- What a thread does, src/server/state.rs:90-95 (locking), src/server/refresher.rs:436-440 (the locks of the condition
variables). -/
inductive Instr (V L E : Type) where
  | acquire (l : Lock)
  | release (l : Lock)
  /-- reads and writes the data which `l` protects -/
  | access (l : Lock) (f : V → L → V → L → Prop)
  /-- one of the operations other than `acquire` and `release`; it may be seen from outside -/
  | outside (o : Op) (f : L → E → L → Prop)

variable {V L E : Type}

/-- The instructions do these operations. Data is accessed after a lock is acquired, before the next operation.
(src/server/mod.rs:249-298: `status` has computed its answer before it writes it.) -/
inductive Fills : List Op → List (Instr V L E) → Prop where
  | nil : Fills [] []
  | acquire {l : Lock} {accs is : List (Instr V L E)} {ops : List Op} (ha : ∀ x ∈ accs, ∃ f, x = .access l f)
      (h : Fills ops is) : Fills (.acquire l :: ops) (.acquire l :: (accs ++ is))
  | release {l : Lock} {is : List (Instr V L E)} {ops : List Op} (h : Fills ops is) :
      Fills (.release l :: ops) (.release l :: is)
  | outside {o : Op} {f : L → E → L → Prop} {is : List (Instr V L E)} {ops : List Op}
      (ho : ∀ l, o ≠ .acquire l ∧ o ≠ .release l) (h : Fills ops is) : Fills (o :: ops) (.outside o f :: is)

/-- A thread: what it still has to do, and its variables. `thread::spawn`, e.g. src/server/refresher.rs:59. -/
abbrev Thread (V L E : Type) := List (Instr V L E) × L

/-- Threads and the data behind the locks, src/server/state.rs:44-58. -/
structure Mach (V L E : Type) where
  threads : List (Thread V L E)
  owner : Lock → Option Nat
  mem : Lock → V

/-- `f` with another value at `l`. `MutexGuard`, src/server/state.rs:279-290. -/
def at_ {α : Type} (f : Lock → α) (l : Lock) (a : α) : Lock → α := fun k => if k = l then a else f k

/-- A step, with what is seen of it: which thread does what. Threads may begin if `P` holds for them. `Mutex`,
src/server/state.rs:48. -/
inductive Mach.Step (P : List (Instr V L E) → Prop) : Mach V L E → List (Nat × Op × E) → Mach V L E → Prop where
  | spawn {m : Mach V L E} {is : List (Instr V L E)} {a : L} (hp : P is) :
      Step P m [] { m with threads := m.threads ++ [(is, a)] }
  | acquire {m : Mach V L E} {i : Nat} {l : Lock} {r : List (Instr V L E)} {a : L}
      (ht : m.threads[i]? = some (.acquire l :: r, a)) (ho : m.owner l = none) :
      Step P m [] ⟨m.threads.set i (r, a), at_ m.owner l (some i), m.mem⟩
  | access {m : Mach V L E} {i : Nat} {l : Lock} {f : V → L → V → L → Prop} {r : List (Instr V L E)} {a a' : L} {v' : V}
      (ht : m.threads[i]? = some (.access l f :: r, a)) (ho : m.owner l = some i) (hf : f (m.mem l) a v' a') :
      Step P m [] ⟨m.threads.set i (r, a'), m.owner, at_ m.mem l v'⟩
  | release {m : Mach V L E} {i : Nat} {l : Lock} {r : List (Instr V L E)} {a : L}
      (ht : m.threads[i]? = some (.release l :: r, a)) (ho : m.owner l = some i) :
      Step P m [] ⟨m.threads.set i (r, a), at_ m.owner l none, m.mem⟩
  | outside {m : Mach V L E} {i : Nat} {o : Op} {f : L → E → L → Prop} {r : List (Instr V L E)} {a a' : L} {e : E}
      (ht : m.threads[i]? = some (.outside o f :: r, a)) (hf : f a e a') :
      Step P m [(i, o, e)] { m with threads := m.threads.set i (r, a') }

/-- The executions from a state in which the shared data is `v`, src/server/state.rs:48. -/
inductive Mach.Run (P : List (Instr V L E) → Prop) (v : Lock → V) : List (Nat × Op × E) → Mach V L E → Prop where
  | init : Run P v [] ⟨[], fun _ => none, v⟩
  | step {tr ev : List (Nat × Op × E)} {m m' : Mach V L E} (h : Run P v tr m) (hs : m.Step P ev m') : Run P v (tr ++ ev) m'

/-! ## The machine in which critical sections are steps -/

/-- Some accesses to the data of `l`, without anything in between, src/server/state.rs:90-95. -/
inductive Accesses (l : Lock) : List (Instr V L E) → V → L → V → L → Prop where
  | nil {v : V} {a : L} : Accesses l [] v a v a
  | cons {f : V → L → V → L → Prop} {r : List (Instr V L E)} {v v1 v2 : V} {a a1 a2 : L} (hf : f v a v1 a1)
      (h : Accesses l r v1 a1 v2 a2) : Accesses l (.access l f :: r) v a v2 a2

/-- As `Mach`, without what threads do in critical sections, src/server/state.rs:44-58. -/
structure Coarse (V L E : Type) where
  threads : List (Thread V L E)
  mem : Lock → V

/-- As `Mach.Step`; a critical section is one step, src/server/state.rs:90-95. -/
inductive Coarse.Step (P : List (Instr V L E) → Prop) : Coarse V L E → List (Nat × Op × E) → Coarse V L E → Prop where
  | spawn {c : Coarse V L E} {is : List (Instr V L E)} {a : L} (hp : P is) :
      Step P c [] { c with threads := c.threads ++ [(is, a)] }
  | section_ {c : Coarse V L E} {i : Nat} {l : Lock} {accs r : List (Instr V L E)} {a a' : L} {v' : V}
      (ht : c.threads[i]? = some (.acquire l :: (accs ++ .release l :: r), a))
      (hf : Accesses l accs (c.mem l) a v' a') :
      Step P c [] ⟨c.threads.set i (r, a'), at_ c.mem l v'⟩
  /-- something is seen of the section -/
  | seen {c : Coarse V L E} {i : Nat} {l : Lock} {accs r : List (Instr V L E)} {a a1 a2 : L} {v' : V} {o : Op}
      {f : L → E → L → Prop} {e : E}
      (ht : c.threads[i]? = some (.acquire l :: (accs ++ .outside o f :: .release l :: r), a))
      (hf : Accesses l accs (c.mem l) a v' a1) (hw : f a1 e a2) :
      Step P c [(i, o, e)] ⟨c.threads.set i (r, a2), at_ c.mem l v'⟩
  | outside {c : Coarse V L E} {i : Nat} {o : Op} {f : L → E → L → Prop} {r : List (Instr V L E)} {a a' : L} {e : E}
      (ht : c.threads[i]? = some (.outside o f :: r, a)) (hf : f a e a') :
      Step P c [(i, o, e)] { c with threads := c.threads.set i (r, a') }

/-- As `Mach.Run`, src/server/state.rs:90-95. -/
inductive Coarse.Run (P : List (Instr V L E) → Prop) (v : Lock → V) : List (Nat × Op × E) → Coarse V L E → Prop where
  | init : Run P v [] ⟨[], v⟩
  | step {tr ev : List (Nat × Op × E)} {c c' : Coarse V L E} (h : Run P v tr c) (hs : c.Step P ev c') :
      Run P v (tr ++ ev) c'

/-- Threads of the daemon: their operations are those of one of its programs, their data is arbitrary.
`Verif.Model.Locks` says where they are in the source (for example src/server/refresher.rs:57-165). -/
def Filled (ps : List Prog) (is : List (Instr V L E)) : Prop := ∃ p ∈ ps, ∃ ops, p.Path ops ∧ Fills ops is

end Pizauth.Locks

import Verif.Model.Cli

/-!
# Starting servers

What `pizauth server` does from its first look at the socket file until it accepts requests (src/main.rs:283-357,
src/server/mod.rs:324-406), for any number of such processes of one user, which share the cache directory; and where
the commands look for their files (src/main.rs:70-128).
-/

namespace Pizauth.Start

/-- What a server process does next, src/main.rs:285-354, src/server/mod.rs:353-397. -/
inductive Pc where
  /-- `sock_path.exists()`, src/main.rs:296 -/
  | look
  /-- `UnixStream::connect(&sock_path)`, src/main.rs:298 -/
  | connect
  /-- `fs::remove_file(&sock_path)`, src/main.rs:302 -/
  | remove
  /-- spawns the thread which keeps the socket file fresh, src/main.rs:309-319 -/
  | spawn
  /-- finds and reads the configuration, src/main.rs:321-322, and connects to syslog, src/main.rs:330-341 -/
  | conf
  /-- `daemon(true, false)`, src/main.rs:342 -/
  | detach
  /-- everything before the socket in `server::server`: binding the HTTP and HTTPS ports, creating a certificate,
  starting threads, src/server/mod.rs:353-395 -/
  | setup
  /-- the `bind` of `UnixListener::bind(sock_path)`, src/server/mod.rs:397 -/
  | bind
  /-- the `listen` of `UnixListener::bind(sock_path)`, src/server/mod.rs:397 -/
  | listen
  /-- `listener.incoming()`, src/server/mod.rs:398-403 -/
  | serving
  /-- the process has ended -/
  | ended
deriving DecidableEq, Repr

/-- A server process, src/main.rs:285-354. -/
structure Proc where
  /-- no `-d` -/
  daemonise : Bool
  pc : Pc
  /-- the exit status which was reported to whoever started it -/
  status : Option Nat
  /-- The thread which keeps the socket file fresh: when it touches the file next. -/
  keep : Option Nat
deriving DecidableEq, Repr

/-- All the server processes of one user, in the order in which they were started; process ids are positions,
src/main.rs:285-354. -/
structure Host where
  procs : List Proc
  /-- The socket file: the process which created it. -/
  sock : Option Nat
  /-- monotonic time in seconds -/
  now : Nat
  /-- when the file was last created or touched -/
  fresh : Nat
deriving DecidableEq, Repr

/-- What can happen, src/main.rs:285-354. -/
inductive Act where
  /-- `pizauth server` (`true`: without `-d`) is started -/
  | start (daemonise : Bool)
  /-- a process does its next step; `ok`: the system calls (which do not depend on the socket file) are successful, and
  the configuration is valid -/
  | run (p : Nat) (ok : Bool)
  /-- the thread which keeps the socket file fresh does its work -/
  | touch (p : Nat)
  /-- the process is killed by a signal, for example the one of a `shutdown` request, src/server/mod.rs:246 -/
  | kill (p : Nat)
  /-- somebody else removes the socket file -/
  | clean
  /-- time passes -/
  | tick (d : Nat)
deriving DecidableEq, Repr

/-- `Duration::from_secs(6 * 60 * 60)`, src/main.rs:311 -/
def sixHours : Nat := 6 * 60 * 60

/-- Does connecting to the socket file succeed? It does if the process which created it listens, src/main.rs:298. -/
def Host.accepts (h : Host) : Bool :=
  match h.sock with
  | none => false
  | some p =>
    match h.procs[p]? with
    | none => false
    | some x => x.pc = .serving

/-- A process has moved on, src/main.rs:285-354. -/
def Host.set (h : Host) (p : Nat) (x : Proc) : Host := { h with procs := h.procs.set p x }

/-- `process::exit(1)`, src/main.rs:300,352. -/
def Proc.fail (x : Proc) : Proc := { x with pc := .ended, status := x.status.or (some 1), keep := none }

/-- The next step of process `p`, in state `x`, src/main.rs:285-354, src/server/mod.rs:353-397. -/
def Host.run (h : Host) (p : Nat) (x : Proc) (ok : Bool) : Option Host :=
  match x.pc with
  | .look => some (h.set p { x with pc := if h.sock.isSome then .connect else .spawn })
  | .connect => some (h.set p (if h.accepts then x.fail else { x with pc := .remove }))
  | .remove => some { h.set p { x with pc := .spawn } with sock := if ok then none else h.sock }
  | .spawn => some (h.set p { x with pc := .conf, keep := some (h.now + sixHours) })
  | .conf => some (h.set p (if ok then { x with pc := if x.daemonise then .detach else .setup } else x.fail))
  -- The parent process ends with status 0. The child process goes on, with this thread only.
  | .detach => some (h.set p (if ok then { x with pc := .setup, status := some 0, keep := none } else x.fail))
  | .setup => some (h.set p (if ok then { x with pc := .bind } else x.fail))
  | .bind =>
    if ok ∧ h.sock = none then some { h.set p { x with pc := .listen } with sock := some p, fresh := h.now }
    else some (h.set p x.fail)
  | .listen => some (h.set p (if ok then { x with pc := .serving } else x.fail))
  | .serving => none
  | .ended => none

/-- `none`: this cannot happen now, src/main.rs:285-354. -/
def Host.step (h : Host) : Act → Option Host
  | .start d => some { h with procs := h.procs ++ [⟨d, .look, none, none⟩] }
  | .run p ok =>
    match h.procs[p]? with
    | none => none
    | some x => h.run p x ok
  -- `thread::sleep` then `utimensat`, src/main.rs:310-319
  | .touch p =>
    match h.procs[p]? with
    | none => none
    | some x =>
      match x.keep with
      | none => none
      | some t =>
        if t ≤ h.now then
          some { h.set p { x with keep := some (h.now + sixHours) } with fresh := if h.sock.isSome then h.now else h.fresh }
        else none
  | .kill p =>
    match h.procs[p]? with
    | none => none
    | some x => if x.pc = .ended then none else some (h.set p { x with pc := .ended, keep := none })
  | .clean => some { h with sock := none }
  | .tick d => some { h with now := h.now + d }

/-! ## Files -/

/-- A path, as its components (an absolute path begins with `"/"`). E.g. src/main.rs:70. -/
macro "Path" : term => `(List String)

/-- The environment variables which are used, src/main.rs:70-128. -/
structure Vars where
  xdgRuntimeDir : Option Path
  tmpdir : Option Path
  xdgConfigHome : Option Path
  home : Option Path
  username : String
deriving DecidableEq, Repr

/-- What there is at a path, src/main.rs:70-128. -/
structure Node where
  isDir : Bool
  /-- It belongs to the user who runs the program. -/
  mine : Bool
  /-- permission bits -/
  mode : Nat
deriving DecidableEq, Repr

/-- A file system. (Symbolic links are followed by everything here: what is at a path is what the link leads to.)
src/main.rs:70-128. -/
structure Files where
  at_ : Path → Option Node
  /-- Is it possible to make a directory here? -/
  writable : Path → Bool
  /-- The permissions which `mkdir` gives to a directory, after `umask`. -/
  newMode : Nat

/-- `md` in `cache_path`, src/main.rs:83-94: `none` is `fatal`. Only the owner can change permissions. -/
def mkPrivate (f : Files) (p : Path) : Option Files :=
  let f1 : Option Files :=
    match f.at_ p with
    | some _ => some f
    | none =>
      if f.writable p then
        some { f with at_ := fun q => if q = p then some ⟨true, true, f.newMode⟩ else f.at_ q }
      else none
  match f1 with
  | none => none
  | some f1 =>
    match f1.at_ p with
    | none => none
    | some n =>
      if n.mine then some { f1 with at_ := fun q => if q = p then some { n with mode := 0o700 } else f1.at_ q }
      else none

/-- The directory in which the cache directory is, src/main.rs:71-81. -/
def runtimeDir (v : Vars) : Path :=
  match v.xdgRuntimeDir with
  | some s => s
  | none =>
    match v.tmpdir with
    | some s => s ++ ["runtime-" ++ v.username]
    | none => ["/", "tmp"] ++ ["runtime-" ++ v.username]

/-- `cache_path`, src/main.rs:70-101. `PIZAUTH_CACHE_LEAF` is src/main.rs:38. -/
def cachePath (v : Vars) (f : Files) : Option (Path × Files) :=
  match mkPrivate f (runtimeDir v) with
  | none => none
  | some f1 =>
    match mkPrivate f1 (runtimeDir v ++ ["pizauth"]) with
    | none => none
    | some f2 => some (runtimeDir v ++ ["pizauth"], f2)

/-- `conf_path`, src/main.rs:103-128; `c` is what `-c` says, `none` is `fatal`. `PIZAUTH_CONF_LEAF` is
src/main.rs:42. -/
def confPath (v : Vars) (f : Files) (c : Option Path) : Option Path :=
  match c with
  | some p => some p
  | none =>
    let dir : Option Path :=
      match v.xdgConfigHome with
      | some s => some s
      | none =>
        match v.home with
        | some s => some (s ++ [".config"])
        | none => none
    match dir with
    | none => none
    | some d =>
      match f.at_ (d ++ ["pizauth.conf"]) with
      | none => none
      | some n => if n.isDir then none else some (d ++ ["pizauth.conf"])

end Pizauth.Start

import Verif.Model.Unix

/-!
# The command line, src/main.rs and src/user_sender.rs

Arguments are parsed by the crate getopts (version 0.2.21); `getopts` below is its `Options::parse` for options with no
argument (`optflag`, `optflagmulti`) and with an optional argument (`optflagopt`), and the default parsing style
(options and other arguments in any order). All its errors are treated alike by pizauth (`usage`), so they are not
distinguished. Arguments which are not UTF-8 make `env::args` panic before anything happens; they are left out.
-/

namespace Pizauth.Cli

/-- An option: its letter, its long name ("" if it has none), whether it may have an argument, and whether it may be
given more than once, src/main.rs:144-146,171-173,222-223,286-288. -/
structure Opt where
  short : Char
  long : String
  arg : Bool
  multi : Bool
deriving DecidableEq, Repr

/-- An option as it is given: by its letter or by its long name (getopts `Name`). A long name of one byte is a letter,
src/main.rs:144-146. -/
inductive Name where
  | short (c : Char)
  | long (s : String)
deriving DecidableEq, Repr

/-- getopts `Name::from_str`, src/main.rs:144-146. -/
def Name.ofChars : List Char → Name
  | [c] => if c.utf8Size = 1 then .short c else .long (String.ofList [c])
  | l => .long (String.ofList l)

/-- getopts `find_opt`, src/main.rs:144-146. -/
def find (opts : List Opt) : Name → Option Opt
  | .short c => opts.find? fun o => o.short == c
  | .long s => opts.find? fun o => o.long != "" && o.long == s

/-- getopts `is_arg`, src/main.rs:144-146. -/
def isArg (s : String) : Bool :=
  match s.toList with
  | '-' :: _ :: _ => true
  | _ => false

/-- What was given: the options, each with its argument, and the other arguments, src/main.rs:151. -/
structure Matches where
  opts : List (Opt × Option String)
  free : List String
deriving DecidableEq, Repr

/-- A group of letters such as `-vd`: the options without argument, and then maybe one which may have an argument,
with the rest of the group as its argument unless that is empty. `none` if some letter is unknown, src/main.rs:151. -/
def letters (opts : List Opt) : List Char → Option (List Opt × Option (Opt × Option String))
  | [] => some ([], none)
  | c :: r =>
    match find opts (.short c) with
    | none => none
    | some o =>
      if o.arg then some ([], some (o, if r.isEmpty then none else some (String.ofList r)))
      else (letters opts r).map fun (l, x) => (o :: l, x)

/-- The list of arguments, before the check for repeated options, src/main.rs:151. -/
def scan (opts : List Opt) : List String → Option Matches
  | [] => some ⟨[], []⟩
  | cur :: r =>
    if !isArg cur then (scan opts r).map fun m => { m with free := cur :: m.free }
    else if cur = "--" then some ⟨[], r⟩
    else
      match cur.toList.drop 1 with
      | '-' :: tail =>
        match find opts (.ofChars (tail.takeWhile (· != '='))) with
        | none => none
        | some o =>
          let v := tail.dropWhile (· != '=')
          if !o.arg && !v.isEmpty then none
          else
            (scan opts r).map fun m =>
              { m with opts := (o, if v.isEmpty then none else some (String.ofList (v.drop 1))) :: m.opts }
      | cs =>
        match letters opts cs with
        | none => none
        | some (l, none) => (scan opts r).map fun m => { m with opts := l.map (·, none) ++ m.opts }
        | some (l, some (o, some v)) =>
          (scan opts r).map fun m => { m with opts := l.map (·, none) ++ (o, some v) :: m.opts }
        | some (l, some (o, none)) =>
          match r with
          | [] => some ⟨l.map (·, none) ++ [(o, none)], []⟩
          | n :: r' =>
            if isArg n then
              (scan opts (n :: r')).map fun m => { m with opts := l.map (·, none) ++ (o, none) :: m.opts }
            else (scan opts r').map fun m => { m with opts := l.map (·, none) ++ (o, some n) :: m.opts }

/-- getopts `Options::parse`: `none` for any error, src/main.rs:151. -/
def getopts (opts : List Opt) (args : List String) : Option Matches :=
  match scan opts args with
  | none => none
  | some m => if opts.all fun o => o.multi || decide ((m.opts.countP fun x => x.1 == o) ≤ 1) then some m else none

/-- getopts `opt_present` (for options named by their letter), src/main.rs:152. -/
def Matches.has (m : Matches) (c : Char) : Bool := m.opts.any fun x => x.1.short == c

/-- getopts `opt_count`, src/main.rs:157. -/
def Matches.count (m : Matches) (c : Char) : Nat := m.opts.countP fun x => x.1.short == c

/-- getopts `opt_str`: the argument of the first occurrence, src/main.rs:104. -/
def Matches.str (m : Matches) (c : Char) : Option String :=
  match m.opts.find? fun x => x.1.short == c with
  | some (_, v) => v
  | none => none

/-! ## src/main.rs -/

/-- src/main.rs:145-146 -/
def optH : Opt := ⟨'h', "help", false, false⟩
/-- The option `-v`, src/main.rs:146. -/
def optV : Opt := ⟨'v', "verbose", false, true⟩
/-- src/main.rs:172,287 -/
def optC : Opt := ⟨'c', "config", true, false⟩
/-- src/main.rs:173 -/
def optJ : Opt := ⟨'j', "", false, false⟩
/-- src/main.rs:223,357 -/
def optU : Opt := ⟨'u', "", false, false⟩
/-- src/main.rs:288 -/
def optD : Opt := ⟨'d', "", false, false⟩

/-- What the program was asked to do, src/main.rs:148-411. -/
inductive Call where
  /-- print the usage and exit with 1 -/
  | usage
  /-- send a request to the server -/
  | client (c : Cmd) (verbosity : Nat)
  | info (json : Bool) (conf : Option String)
  | server (conf : Option String) (detach : Bool) (verbosity : Nat)
deriving DecidableEq, Repr

/-- A command without arguments, e.g. src/main.rs:150-169. -/
def simple (args : List String) (c : Cmd) : Call :=
  match getopts [optH, optV] args with
  | none => .usage
  | some m => if m.has 'h' || !m.free.isEmpty then .usage else .client c (m.count 'v')

/-- A command for an account, without `-u`, src/main.rs:270-284, or with it, src/main.rs:221-239,355-376. -/
def forAccount (opts : List Opt) (args : List String) (mk : String → Bool → Cmd) : Call :=
  match getopts opts args with
  | none => .usage
  | some m =>
    if m.has 'h' then .usage
    else
      match m.free with
      | [act] => .client (mk act (!m.has 'u')) (m.count 'v')
      | _ => .usage

/-- `main`, src/main.rs:130-412, up to the point where the command's work begins. `args` does not contain the program's
name; `stdin` is what `restore` reads. -/
def call (args : List String) (stdin : Bytes) : Call :=
  match args with
  | [] => .usage
  | cmd :: rest =>
    if cmd = "dump" then simple rest .dump
    else if cmd = "info" then
      match getopts [optH, optV, optC, optJ] rest with
      | none => .usage
      | some m => if m.has 'h' || !m.free.isEmpty then .usage else .info (m.has 'j') (m.str 'c')
    else if cmd = "refresh" then forAccount [optH, optV, optU] rest .refresh
    else if cmd = "reload" then simple rest .reload
    else if cmd = "restore" then simple rest (.restore stdin)
    else if cmd = "revoke" then forAccount [optH, optV] rest fun act _ => .revoke act
    else if cmd = "server" then
      match getopts [optH, optV, optC, optD] rest with
      | none => .usage
      | some m => if m.has 'h' || !m.free.isEmpty then .usage else .server (m.str 'c') (!m.has 'd') (m.count 'v')
    else if cmd = "show" then forAccount [optH, optV, optU] rest .show
    else if cmd = "shutdown" then simple rest .shutdown
    else if cmd = "status" then simple rest .status
    else .usage

/-! ## Talking to the server, src/user_sender.rs -/

/-- How the connection to the server goes, src/user_sender.rs:11-24. -/
inductive Conn where
  /-- `connect` fails, e.g. src/user_sender.rs:13-14 -/
  | refused
  /-- `write_all` fails, e.g. src/user_sender.rs:15-17 -/
  | unwritable
  /-- `shutdown` or reading fails, with this message -/
  | broken (msg : String)
  /-- this is read from the server until it closes the connection -/
  | answer (b : Bytes)
deriving DecidableEq, Repr

/-- The end of the process: what it wrote to stdout and to stderr, and its exit code. (Writing to stdout succeeds.)
src/main.rs:56-68,160-168. -/
structure Exit where
  stdout : Bytes
  stderr : Option String
  code : Nat
deriving DecidableEq, Repr

/-- `error!("{e:}"); process::exit(1)`, e.g. src/main.rs:164-167 -/
def failWith (msg : String) : Exit := ⟨[], some msg, 1⟩

/-- The work of a client command, src/user_sender.rs, and what src/main.rs does with the result. `info` is left out:
it is not a `Call.client`. -/
def run (c : Cmd) (conn : Conn) : Exit :=
  match conn with
  | .refused => failWith "pizauth authenticator not running or not responding"
  | .unwritable => failWith "Socket not writeable"
  | .broken msg =>
    match c with
    | .shutdown => ⟨[], none, 0⟩
    | _ => failWith msg
  | .answer b =>
    match c with
    | .shutdown => ⟨[], none, 0⟩
    | .dump => ⟨b, none, 0⟩
    | _ =>
      match c.readReply b with
      | .ok none => ⟨[], none, 0⟩
      | .ok (some x) => ⟨utf8 (x ++ "\n"), none, 0⟩
      | .err msg => failWith msg

end Pizauth.Cli

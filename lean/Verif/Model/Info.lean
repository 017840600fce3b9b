import Verif.Model.Json
import Verif.Model.Cli

/-!
# `pizauth info`

src/main.rs:170-218, src/user_sender.rs:25-40, src/server/mod.rs:103-124,367-374, and the part of `serde_json` which
prints values.

Simplification: a number which is not a natural number is printed as it was written.
-/

namespace Pizauth

namespace Json

/-- `Map::insert`: a map is sorted by its keys (`BTreeMap`), and each key occurs once, src/server/mod.rs:104-122,
src/main.rs:190-203. -/
def put {α : Type} (k : List Char) (v : α) : List (List Char × α) → List (List Char × α)
  | [] => [(k, v)]
  | kv :: kvs => if k = kv.1 then (k, v) :: kvs else if k < kv.1 then (k, v) :: kv :: kvs else kv :: put k v kvs

/-- The map which has these pairs inserted, src/server/mod.rs:104-122. -/
def sortKeys {α : Type} (kvs : List (List Char × α)) : List (List Char × α) :=
  kvs.foldl (fun m kv => put kv.1 kv.2 m) []

/-- `a,b,c`, src/server/mod.rs:122. -/
def commas : List (List Char) → List Char
  | [] => []
  | [t] => t
  | t :: ts => t ++ ',' :: commas ts

/-- `Display for Value`, src/server/mod.rs:122, src/main.rs:204. -/
def print : Json → List Char
  | .null => ['n', 'u', 'l', 'l']
  | .bool b => if b then ['t', 'r', 'u', 'e'] else ['f', 'a', 'l', 's', 'e']
  | .nat n => (toString n).toList
  | .num t => t
  | .str s => quoted s
  | .arr js => '[' :: (commas (all js) ++ [']'])
  | .obj kvs => objText (sortKeys (members kvs))
where
  all : List Json → List (List Char)
    | [] => []
    | j :: js => print j :: all js
  members : List (List Char × Json) → List (List Char × List Char)
    | [] => []
    | (k, j) :: kvs => (k, print j) :: members kvs

/-- `Value::get(k)`, src/main.rs:213. -/
def get (j : Json) (k : String) : Option Json :=
  match j with
  | .obj kvs => kvs.reverse.lookup k.toList
  | _ => none

/-- `Value::as_str`, src/main.rs:210-214. -/
def asStr : Json → Option String
  | .str s => some (String.ofList s)
  | _ => none

end Json

namespace Info
open Cli

/-- `env!("CARGO_PKG_VERSION")`: Cargo.toml:4. -/
def version : String := "1.0.7"

/-- `format!("{x:02X}")`, src/server/mod.rs:367-374. -/
def hexByte (b : UInt8) : List Char :=
  let dig (n : Nat) : Char := if n < 10 then Char.ofNat (48 + n) else Char.ofNat (55 + n)
  [dig (b.toNat / 16), dig (b.toNat % 16)]

/-- The public key in the answer to `info`, src/server/mod.rs:367-374. -/
def pubKeyText (key : Bytes) : String := ":".intercalate (key.map fun b => String.ofList (hexByte b))

/-- `server_info`, src/user_sender.rs:25-40, and `.ok()`, src/main.rs:179. -/
def serverInfo (conn : Conn) : Option Json :=
  match conn with
  | .answer b =>
    match fromUtf8 b with
    | some s => Json.fromStr s.toList
    | none => none
  | _ => none

/-- The output for people, src/main.rs:207-223; `none` is a panic. -/
def textOut (prog cache conf : String) (sv : Option Json) : Option String :=
  let head := prog ++ " version " ++ version ++ ":\n  cache directory: " ++ cache ++ "\n  config file: " ++ conf ++ "\n"
  match sv with
  | none => some (head ++ "server not running\n")
  | some j =>
    match (j.get "http_port").bind Json.asStr, (j.get "https_port").bind Json.asStr with
    | some p, some q =>
      match j.get "https_pub_key" with
      | none => some (head ++ "server running:\n  HTTP port: " ++ p ++ "\n  HTTPS port: " ++ q ++ "\n")
      | some x =>
        match x.asStr with
        | some x =>
          some (head ++ "server running:\n  HTTP port: " ++ p ++ "\n  HTTPS port: " ++ q ++ "\n" ++
            "  HTTPS public key: " ++ x ++ "\n")
        | none => none
    | _, _ => none

/-- The value of which `-j` prints the text, src/main.rs:189-204. -/
def jsonOut (prog cache conf : String) (sv : Option Json) : Json :=
  .obj (["cache_directory", "config_file", "executed_as", "info_format_version", "pizauth_version"].map String.toList
    |>.zip [.str cache.toList, .str conf.toList, .str prog.toList, .nat 2, .str version.toList]
    |>.append (match sv with
      | some x => [("server_running".toList, .bool true), ("server_info".toList, x)]
      | none => [("server_running".toList, .bool false)]))

/-- `pizauth info`, src/main.rs:170-224; `cache` and `conf` are `cache_path` and `conf_path` (`none`: not found, with a
message). `none` is a panic. -/
def run (json : Bool) (prog cache : String) (conf : Except String String) (conn : Conn) : Option Exit :=
  match conf with
  | .error msg => some (failWith msg)
  | .ok conf =>
    if json then
      some ⟨utf8 (String.ofList ((jsonOut prog cache conf (serverInfo conn)).print ++ ['\n'])), none, 0⟩
    else
      match textOut prog cache conf (serverInfo conn) with
      | some s => some ⟨utf8 s, none, 0⟩
      | none => none

end Info

end Pizauth

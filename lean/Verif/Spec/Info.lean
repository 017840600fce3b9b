import Verif.Spec.Boot
import Verif.Spec.Json

/-!
# Specification: what the server and `pizauth info` say about the server
-/

namespace Pizauth

/-- A port, or that there is none. -/
def portWord (p : Option Nat) : String := match p with | some p => toString p | none => "none"

/-- The ports (and the key) of the HTTP and HTTPS servers, in JSON. -/
def infoText (http https : Option Nat) (key : Option String) : String :=
  "{\"http_port\":\"" ++ portWord http ++ "\",\"https_port\":\"" ++ portWord https ++ "\"" ++
  (match key with | some k => ",\"https_pub_key\":\"" ++ k ++ "\"" | none => "") ++ "}"

/-- A string in a JSON value. -/
def jstr (s : String) : Json := .str s.toList

/-- What the server says about itself, see src/server/mod.rs:103-124. `http`, `https`: the ports; `key`: the public key. -/
def serverValue (http https : Option Nat) (key : Option String) : Json :=
  .obj ([("http_port".toList, jstr (portWord http)), ("https_port".toList, jstr (portWord https))] ++
    (match key with | some k => [("https_pub_key".toList, jstr k)] | none => []))

/-- What `info -j` says; `server`: what the server says, if there is one. -/
def infoValue (prog cache conf : String) (server : Option Json) : Json :=
  .obj ([("cache_directory".toList, jstr cache), ("config_file".toList, jstr conf), ("executed_as".toList, jstr prog),
    ("info_format_version".toList, .nat 2), ("pizauth_version".toList, jstr "1.0.7")] ++
    (match server with
     | some x => [("server_info".toList, x), ("server_running".toList, .bool true)]
     | none => [("server_running".toList, .bool false)]))

/-- What `info` says. -/
def infoLines (prog cache conf : String) (server : Option (Option Nat × Option Nat × Option String)) : String :=
  prog ++ " version 1.0.7:\n  cache directory: " ++ cache ++ "\n  config file: " ++ conf ++ "\n" ++
  (match server with
   | none => "server not running\n"
   | some (http, https, key) => "server running:\n  HTTP port: " ++ portWord http ++ "\n  HTTPS port: " ++ portWord https ++ "\n" ++
      (match key with | some k => "  HTTPS public key: " ++ k ++ "\n" | none => ""))

end Pizauth

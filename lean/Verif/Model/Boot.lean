import Verif.Model.World
import Verif.Model.Info
import Verif.Model.Syntax

/-!
# What `server::server` does before it serves requests

src/server/mod.rs:353-397, src/server/http_server.rs:374-446. Simplifications: `unveil` and `pledge` (OpenBSD only) are left
out. Eventer, refresher and notifier are created without errors: making a pipe or a thread does not fail.
-/

namespace Pizauth

/-- What the operating system and the TLS library do. Errors are texts, src/server/mod.rs:353-397,
src/server/http_server.rs:374-446. -/
structure Machine where
  /-- `TcpListener::bind(http_listen)` and `local_addr()?.port()`: the port -/
  bindHttp : String → Except String Nat
  /-- the same for `https_listen`, after the other one -/
  bindHttps : String → Except String Nat
  /-- `hostname::get()`, if it is Unicode -/
  hostname : Option String
  /-- `generate_simple_self_signed`: the public key -/
  certify : List String → Except String Bytes
  /-- `ServerConfig::builder()…with_single_cert` -/
  tls : Bytes → Except String Unit
  /-- `UnixListener::bind` -/
  bindUnix : Except String Unit

/-- `http_server_setup`, src/server/http_server.rs:374-383. -/
def httpServerSetup (M : Machine) (c : Config) : Except String (Option Nat) :=
  match c.httpListen with
  | some l => (M.bindHttp l).map some
  | none => .ok none

/-- The names in the certificate, src/server/http_server.rs:412-421. -/
def certNames (M : Machine) : List String :=
  ["localhost", "127.0.0.1", "::1"] ++ M.hostname.toList

/-- `https_server_setup`, src/server/http_server.rs:402-431. -/
def httpsServerSetup (M : Machine) (c : Config) : Except String (Option (Nat × Bytes)) :=
  match c.httpsListen with
  | some l => do
    let key ← M.certify (certNames M)
    let port ← M.bindHttps l
    return some (port, key)
  | none => .ok none

/-- `server`, src/server/mod.rs:353-397, up to the loop. -/
def serverBoot (M : Machine) (c : Config) (now : Instant) (wall : SysTime) : Except String World := do
  let httpPort ← httpServerSetup M c
  let https ← httpsServerSetup M c
  let st : Static := { httpPort := httpPort, httpsPort := https.map (·.1), httpsPubKey := https.map fun x => Info.pubKeyText x.2 }
  match https with
  | some (_, key) => M.tls key
  | none => .ok ()
  M.bindUnix
  return World.init c st now wall

end Pizauth

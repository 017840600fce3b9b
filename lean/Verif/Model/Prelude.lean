/-!
# Basic vocabulary: bytes, UTF-8, clocks

Models the Rust standard-library vocabulary the daemon is written in.
-/

namespace Pizauth

/-- `Vec<u8>` / `&[u8]`. E.g. src/server/mod.rs:80. -/
abbrev Bytes := List UInt8

/-- `str::as_bytes`. E.g. src/server/mod.rs:122. -/
def utf8 (s : String) : Bytes := s.toByteArray.data.toList

/-- `std::str::from_utf8` (`none` models `Err`), used in src/server/mod.rs:95,136,173,194 and by
`BufRead::read_line` in src/server/http_server.rs:285,304. -/
def fromUtf8 (b : Bytes) : Option String := String.fromUTF8? ⟨b.toArray⟩

/-- `boot_time::Instant`: nanoseconds on the boot clock. Simplification: an `Int`; the bounds of the
type appear only in the `checked_*` operations below. (A macro rather than a definition, so that `omega` sees
through it; the same for the next two.) E.g. src/server/mod.rs:68. -/
macro "Instant" : term => `(Int)

/-- `std::time::SystemTime`: nanoseconds relative to the UNIX epoch. E.g. src/server/state.rs:477. -/
macro "SysTime" : term => `(Int)

/-- `std::time::Duration`, in nanoseconds. E.g. src/server/mod.rs:72. -/
macro "Dur" : term => `(Nat)

/-- Nanoseconds in a second. E.g. src/server/mod.rs:72. -/
def nsPerSec : Nat := 1000000000

/-- `Duration::from_secs`. E.g. src/server/mod.rs:72. -/
def secs (n : Nat) : Dur := n * nsPerSec

/-- Largest representable time: an `i64` number of seconds plus 999999999 ns (Linux `timespec`),
src/server/mod.rs:71-76. -/
def timeMax : Int := (2 ^ 63 - 1) * 1000000000 + 999999999

/-- Smallest representable time, src/server/state.rs:484,519. -/
def timeMin : Int := -(2 ^ 63) * 1000000000

/-- `Instant::checked_add` / `SystemTime::checked_add`: `None` when the result is not representable. E.g.
src/server/mod.rs:71-76. -/
def checkedAdd (t : Int) (d : Dur) : Option Int :=
  if t + (d : Int) ≤ timeMax then some (t + (d : Int)) else none

/-- `Instant::checked_sub` / `SystemTime::checked_sub`. E.g. src/server/state.rs:484,519. -/
def checkedSub (t : Int) (d : Dur) : Option Int :=
  if timeMin ≤ t - (d : Int) then some (t - (d : Int)) else none

/-- `a.checked_duration_since(b)` for `Instant`, and `a.duration_since(b).ok()` for `SystemTime`:
`None` if `b` is later than `a`. E.g. src/server/state.rs:479,514. -/
def checkedDurationSince (a b : Int) : Option Dur :=
  if b ≤ a then some (a - b).toNat else none

/-- `u64::MAX + 1`. E.g. src/config.rs:607. -/
def u64Size : Nat := 18446744073709551616

end Pizauth

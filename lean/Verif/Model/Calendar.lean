import Verif.Model.Prelude

/-!
# Dates, as chrono prints them

The daemon prints dates with `dt.to_rfc2822()`, src/server/mod.rs:306-322. The library (chrono 0.4.39, Cargo.lock) is not
part of the repository; the rest of the model works with any function (`Env.rfc2822`), and this file is the one which
chrono has: `DateTime<Local>::from(SystemTime)` followed by `to_rfc2822`.

Simplifications: the time zone is an arbitrary function from times to offsets; the tables of chrono are replaced with
the formulas which they tabulate.
-/

namespace Pizauth

/-- The leap days of the first `y` years of a cycle of 400 years (chrono's table `YEAR_DELTAS`). Used by
src/server/mod.rs:306-322. -/
def yearDelta (y : Nat) : Nat := (y + 3) / 4 - (y + 99) / 100 + (y + 399) / 400

/-- Year (within a cycle of 400 years) and day of the year (from 0) of a day of such a cycle (chrono's
`cycle_to_yo`). Used by src/server/mod.rs:306-322. -/
def cycleToYo (cycle : Nat) : Nat × Nat :=
  let year := cycle / 365
  let ordinal0 := cycle % 365
  if ordinal0 < yearDelta year then (year - 1, ordinal0 + (365 - yearDelta (year - 1)))
  else (year, ordinal0 - yearDelta year)

/-- Month (from 1) and day of the month (from 1) of a day of the year (from 0), given the lengths of the months. Used by
src/server/mod.rs:306-322. -/
def monthDay : List Nat → Nat → Nat → Nat × Nat
  | [], month, _ => (month, 0)
  | n :: r, month, ordinal0 => if ordinal0 < n then (month, ordinal0 + 1) else monthDay r (month + 1) (ordinal0 - n)

/-- The lengths of the months of a year. Used by src/server/mod.rs:306-322. -/
def monthLengths (year : Nat) : List Nat :=
  [31, if year % 4 = 0 ∧ (year % 100 = 0 → year % 400 = 0) then 29 else 28, 31, 30, 31, 30, 31, 31, 30, 31, 30, 31]

/-- `write_hundreds`, used by src/server/mod.rs:306-322. -/
def writeHundreds (n : Nat) : List Char := [Char.ofNat (48 + n / 10), Char.ofNat (48 + n % 10)]

/-- `OffsetFormat::format` with minutes, without colon and with zeros. Used by src/server/mod.rs:306-322. -/
def writeOffset (off : Int) : List Char :=
  let minutes := (off.natAbs + 30) / 60
  (if off < 0 then '-' else '+') :: (writeHundreds (minutes / 60) ++ writeHundreds (minutes % 60))

/-- `write_rfc2822`, without the check of the year: the day of the week, the day and so on. Used by
src/server/mod.rs:306-322. -/
def writeRfc2822 (weekday day month year sod : Nat) (off : Int) : List Char :=
  (["Sun", "Mon", "Tue", "Wed", "Thu", "Fri", "Sat"].getD weekday "").toList ++ [',', ' '] ++
  (if day < 10 then [Char.ofNat (48 + day)] else writeHundreds day) ++ [' '] ++
  (["Jan", "Feb", "Mar", "Apr", "May", "Jun", "Jul", "Aug", "Sep", "Oct", "Nov", "Dec"].getD (month - 1) "").toList ++ [' '] ++
  writeHundreds (year / 100) ++ writeHundreds (year % 100) ++ [' '] ++
  writeHundreds (sod / 3600) ++ [':'] ++ writeHundreds (sod / 60 % 60) ++ [':'] ++ writeHundreds (sod % 60) ++ [' '] ++
  writeOffset off

/-- `DateTime<Local>::from(SystemTime)` and `to_rfc2822` (`none`: panic, for years which do not have one to four digits,
and for times which chrono cannot represent, which are further away). `zone` are the seconds by which local time is
ahead. The number 719528 is chrono's `UNIX_EPOCH_DAY` (719163) and the days of year 0 (365). Used by
src/server/mod.rs:306-322. -/
def rfc2822 (zone : Int → Int) (t : SysTime) : Option String :=
  let secs := t / 1000000000
  let off := zone secs
  let loc := secs + off
  let days := loc / 86400 + 719528
  if days < 0 then none
  else
    let yo := cycleToYo (days.toNat % 146097)
    let year := days.toNat / 146097 * 400 + yo.1
    if 9999 < year then none
    else
      let md := monthDay (monthLengths year) 1 yo.2
      some (String.ofList (writeRfc2822 ((days.toNat + 6) % 7) md.2 md.1 year (loc % 86400).toNat off))

end Pizauth

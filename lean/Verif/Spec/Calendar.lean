/-!
# Specification: the calendar, and dates as RFC 2822 writes them

By counting: how long years and months are, and how many days are before a date.
-/

namespace Pizauth.Calendar

/-- The leap years of the Gregorian calendar. -/
def leap (y : Nat) : Bool := y % 4 == 0 && (y % 100 != 0 || y % 400 == 0)

def yearDays (y : Nat) : Nat := if leap y then 366 else 365

/-- The days of month `m` (from 1). -/
def monthDays (y m : Nat) : Nat :=
  if m = 2 then (if leap y then 29 else 28)
  else if m = 4 ∨ m = 6 ∨ m = 9 ∨ m = 11 then 30
  else 31

/-- The days of the years before `y`, from year 0. -/
def daysBeforeYear : Nat → Nat
  | 0 => 0
  | y + 1 => daysBeforeYear y + yearDays y

/-- The days of the first `n` months of year `y`. -/
def daysOfMonths (y : Nat) : Nat → Nat
  | 0 => 0
  | n + 1 => daysOfMonths y n + monthDays y (n + 1)

/-- A date and a time of day. -/
structure Date where
  year : Nat
  month : Nat
  day : Nat
  hour : Nat
  minute : Nat
  second : Nat
  deriving DecidableEq

/-- There is such a date. -/
structure Date.Valid (c : Date) : Prop where
  month : 1 ≤ c.month ∧ c.month ≤ 12
  day : 1 ≤ c.day ∧ c.day ≤ monthDays c.year c.month
  hour : c.hour < 24
  minute : c.minute < 60
  second : c.second < 60

/-- The days from 1 January of year 0 to a date. -/
def Date.days (c : Date) : Nat := daysBeforeYear c.year + daysOfMonths c.year (c.month - 1) + (c.day - 1)

/-- The seconds from the beginning of 1970 to a date. -/
def Date.seconds (c : Date) : Int :=
  ((c.days : Int) - daysBeforeYear 1970) * 86400 + c.hour * 3600 + c.minute * 60 + c.second

/-- The day of the week: 1 January 1970 was a Thursday. -/
def Date.weekday (c : Date) : String :=
  ["Thu", "Fri", "Sat", "Sun", "Mon", "Tue", "Wed"].getD (((c.days : Int) - daysBeforeYear 1970) % 7).toNat ""

def monthName (m : Nat) : String :=
  ["Jan", "Feb", "Mar", "Apr", "May", "Jun", "Jul", "Aug", "Sep", "Oct", "Nov", "Dec"].getD (m - 1) ""

/-- One decimal digit. -/
def digit (n : Nat) : Char := "0123456789".toList.getD n '0'

def twoDigits (n : Nat) : String := String.ofList [digit (n / 10), digit (n % 10)]

def fourDigits (n : Nat) : String := twoDigits (n / 100) ++ twoDigits (n % 100)

/-- The day of the month has one or two digits. -/
def dayText (n : Nat) : String := if n < 10 then String.ofList [digit n] else twoDigits n

/-- How far local time is ahead of UTC (in seconds), in hours and minutes. -/
def zoneText (offset : Int) : String :=
  (if offset < 0 then "-" else "+") ++
    twoDigits ((offset.natAbs + 30) / 60 / 60) ++ twoDigits ((offset.natAbs + 30) / 60 % 60)

/-- A date as RFC 2822, section 3.3, writes it: `Thu, 1 Jan 1970 01:00:00 +0100`. -/
def Date.text (c : Date) (offset : Int) : String :=
  c.weekday ++ ", " ++ dayText c.day ++ " " ++ monthName c.month ++ " " ++ fourDigits c.year ++ " " ++
    twoDigits c.hour ++ ":" ++ twoDigits c.minute ++ ":" ++ twoDigits c.second ++ " " ++ zoneText offset

/-- `s` is the date and time of day at time `t` (in nanoseconds since the beginning of 1970), to the second, at a place
where local time is ahead by `zone`. -/
def IsDate (zone : Int → Int) (t : Int) (s : String) : Prop :=
  ∃ c : Date, c.Valid ∧ c.year ≤ 9999 ∧ c.seconds = t / 1000000000 + zone (t / 1000000000) ∧
    s = c.text (zone (t / 1000000000))

/-- At time `t`, the year at that place is before 0 or after 9999. -/
def FarAway (zone : Int → Int) (t : Int) : Prop :=
  t / 1000000000 + zone (t / 1000000000) < (⟨0, 1, 1, 0, 0, 0⟩ : Date).seconds ∨
    (⟨9999, 12, 31, 23, 59, 59⟩ : Date).seconds < t / 1000000000 + zone (t / 1000000000)

/-- Local time is ahead by less than a day, or behind by less than a day. -/
def Zone (zone : Int → Int) : Prop := ∀ x, -86400 < zone x ∧ zone x < 86400

end Pizauth.Calendar

/-
Model of `Ctime` on Linux (/repo/src/mg/core/nx/ctime.cpp, /repo/src/mg/core/ctime.h) and of `MP4NOW` (/repo/src/mg/media/mp4write.h 56).

The C library is modelled by its specification: `gmtime_r` gives the fields of the calendar (a parameter of the functions here, see `Spec.Reads`), `mktime` counts the seconds of the given fields in a zone that is a fixed number of seconds
ahead of UTC (daylight saving time is left out; month 12 is January of the next year, other fields are not normalized), `strftime` prints numbers. Text is a list of characters.
-/
namespace Verif.Date

/-- `SYSTEMTIME`, ctime.h 32-45; `hnano` is `total_hnano`, `none` for UINT64_MAX. -/
structure SysTime where
  year : Nat
  month : Nat
  day : Nat
  hour : Nat
  minute : Nat
  second : Nat
  hnano : Option Nat

/-- `struct tm` of the C library, the fields used: years from 1900, months from 0. -/
structure Tm where
  year : Nat
  mon : Nat
  mday : Nat
  hour : Nat
  min : Nat
  sec : Nat

/-- `tm_to_sm`, ctime.cpp 29-40. -/
def tmToSm (t : Tm) (hnano : Option Nat) : SysTime := ⟨t.year, t.mon, t.mday, t.hour, t.min, t.sec, hnano⟩

/-- `sm_to_tm`, ctime.cpp 43-53. -/
def smToTm (s : SysTime) : Tm := ⟨s.year, s.month, s.day, s.hour, s.minute, s.second⟩

/-- Days in the years before `y` of the Gregorian calendar, from year 1 on. -/
def yearDays (y : Nat) : Int := 365 * ((y : Int) - 1) + ((y : Int) - 1) / 4 - ((y : Int) - 1) / 100 + ((y : Int) - 1) / 400

/-- Days in the months before month `m` (from 0) of a year. -/
def monthDays (y m : Nat) : Nat :=
  ([31, if y % 4 = 0 ∧ (y % 100 ≠ 0 ∨ y % 400 = 0) then 29 else 28, 31, 30, 31, 30, 31, 31, 30, 31, 30, 31].take m).sum

/-- `mktime`: seconds from 1970-01-01 00:00 UTC; `zone` is the number of seconds local time is ahead of UTC. -/
def mktime (zone : Int) (t : Tm) : Int :=
  let y := 1900 + t.year + t.mon / 12
  ((yearDays y - yearDays 1970) + (monthDays y (t.mon % 12) : Int) + ((t.mday : Int) - 1)) * 86400 + t.hour * 3600 + t.min * 60 + t.sec - zone

/-- uint64_t -/
def u64 (x : Int) : Nat := (x % 2 ^ 64).toNat

/-- int64_t of a uint64_t -/
def i64 (x : Nat) : Int := if x < 2 ^ 63 then x else (x : Int) - 2 ^ 64

/-- `total_seconds`, ctime.cpp 54-60. -/
def totalSeconds (zone : Int) (s : SysTime) : Nat := u64 (mktime zone (smToTm s))

/-- `total_hnano`, ctime.cpp 61-71, and `TotalHNano`, 194-206. -/
def totalHnano (zone : Int) (s : SysTime) : Nat :=
  match s.hnano with
  | none => u64 (totalSeconds zone s * 10000000)
  | some h => h

/-- `ResetToNow`, ctime.cpp 93-122, without zone: `tm` is what `gmtime_r` makes of the time read first, `clock` the seconds and nanoseconds read afterwards. -/
def now (tm : Tm) (clock : Nat × Nat) : SysTime := tmToSm tm (some (u64 (clock.1 * 10000000 + clock.2 / 100)))

/-- The constructor from a date, ctime.cpp 132-145. -/
def ofDate (year month day : Nat) : SysTime := ⟨year, month, day, 0, 0, 0, none⟩

/-- `MilliSeconds`, ctime.cpp 175-191. The division of the first branch is unsigned. -/
def milliSeconds (zone : Int) (s base : SysTime) : Int :=
  if (base.hnano = none ∧ s.hnano = none) ∨ (base.hnano ≠ none ∧ s.hnano ≠ none) then
    i64 (u64 ((totalHnano zone s : Int) - totalHnano zone base) / 10000)
  else i64 (u64 (((totalSeconds zone s : Int) - totalSeconds zone base) * 1000))

/-- `Seconds`, ctime.cpp 236-239 (division towards 0). -/
def seconds (zone : Int) (s base : SysTime) : Int := (milliSeconds zone s base).tdiv 1000
/-- `Minutes`, ctime.cpp 241-244. -/
def minutes (zone : Int) (s base : SysTime) : Int := (seconds zone s base).tdiv 60
/-- `Hours`, ctime.cpp 246-251. -/
def hours (zone : Int) (s base : SysTime) : Int := (minutes zone s base).tdiv 60
/-- `Days`, ctime.cpp 259-262. -/
def days (zone : Int) (s base : SysTime) : Int := (minutes zone s base).tdiv 1440

/-- `MP4NOW`, mp4write.h 56. -/
def mp4now (zone : Int) (tm : Tm) (clock : Nat × Nat) : Nat := u64 (seconds zone (now tm clock) (ofDate 1904 1 1))

/-! ### text -/

/-- A number in decimal. -/
def decimal (n : Nat) : List Char := Nat.toDigits 10 n

/-- A number with at least two digits, `%m`, `%d`, `%H`, `%M`, `%S` of `strftime`. -/
def two (n : Nat) : List Char := if n < 10 then '0' :: decimal n else decimal n

/-- `ToTimeString` without format, ctime.cpp 277-308: "%H:%M:%S". -/
def timeText (s : SysTime) : List Char :=
  let t := smToTm s
  two t.hour ++ [':'] ++ two t.min ++ [':'] ++ two t.sec

/-- `ToDateString` without format, ctime.cpp 310-319: "%Y-%m-%d"; `strftime` adds 1900 and 1. -/
def dateText (s : SysTime) : List Char :=
  let t := smToTm s
  decimal (t.year + 1900) ++ ['-'] ++ two (t.mon + 1) ++ ['-'] ++ two t.mday

/-- `get_MillisecondsString`, ctime.cpp 321-338. -/
def milliText (zone : Int) (s : SysTime) : List Char :=
  let mx := totalHnano zone s % 10000000 / 10000
  (if mx < 100 then ['0'] else []) ++ (if mx < 10 then ['0'] else []) ++ decimal mx

/-- The zone at the end of `ToXml`, ctime.cpp 365-392: `offset` is `GetUTCOffset()` in minutes, put into a `uint64_t` after the division by 60, so that it is never negative; appending a number prints it (`Cstring::operator+=`). -/
def zoneText (isLocal : Bool) (offset : Int) : List Char :=
  let o := if isLocal then u64 (offset.tdiv 60) else 0
  if o ≠ 0 then
    if o > 0 then ['+'] ++ (if o < 10 then ['0'] else []) ++ decimal o ++ [':', '0', '0']
    else ['-'] ++ (if u64 (-(o : Int)) < 10 then ['0'] else []) ++ decimal (u64 (-(o : Int))) ++ [':', '0', '0']
  else ['Z']

/-- `ToXml`, ctime.cpp 356-395. -/
def toXml (zone : Int) (s : SysTime) (isLocal : Bool) (offset : Int) : List Char :=
  dateText s ++ ['T'] ++ timeText s ++ ['.'] ++ milliText zone s ++ zoneText isLocal offset

/-! ### reading a date -/

/-- Memory of `_systime` as 16 bit words: year, month, day of week, day, hour, minute, second, milliseconds (words 0 to 7), `total_hnano` (8 to 11). -/
abbrev Words := List Nat

/-- `sscanf` stores an `int` (32 bits) through each pointer, though the fields have 16 bits. -/
def store (m : Words) (i n : Nat) : Words := (m.set i (n % 2 ^ 16)).set (i + 1) (n / 2 ^ 16 % 2 ^ 16)

/-- The constructor from text, ctime.cpp 149-172: the seven numbers are stored in the order of the arguments; `m` is what was in the memory before. -/
def scan (m : Words) (year month day hour minute second milli : Nat) : Words :=
  store (store (store (store (store (store (store m 0 year) 1 month) 3 day) 4 hour) 5 minute) 6 second) 7 milli

/-- The fields as the other functions see them. -/
def fields (m : Words) : SysTime :=
  ⟨m.getD 0 0, m.getD 1 0, m.getD 3 0, m.getD 4 0, m.getD 5 0, m.getD 6 0,
    some (m.getD 8 0 + m.getD 9 0 * 2 ^ 16 + m.getD 10 0 * 2 ^ 32 + m.getD 11 0 * 2 ^ 48)⟩

end Verif.Date

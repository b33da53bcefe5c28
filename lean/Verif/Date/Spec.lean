import Verif.Date.Model
/-
The calendar, counted day by day, and the text of a date (ISO 8601).
-/
namespace Verif.Date.Spec

/-- Leap years of the Gregorian calendar. -/
def leap (y : Nat) : Bool := y % 4 = 0 && (y % 100 ≠ 0 || y % 400 = 0)

def yearLength (y : Nat) : Nat := if leap y then 366 else 365

/-- Days before the year `y`, counted from year 0. -/
def daysTo : Nat → Nat
  | 0 => 0
  | y + 1 => daysTo y + yearLength y

def monthLengths (y : Nat) : List Nat := [31, if leap y then 29 else 28, 31, 30, 31, 30, 31, 31, 30, 31, 30, 31]

/-- A date and time of day: month from 1 to 12, day from 1. -/
structure Civil where
  year : Nat
  month : Nat
  day : Nat
  hour : Nat
  minute : Nat
  second : Nat

/-- The fields are in their ranges. -/
structure Civil.Valid (c : Civil) : Prop where
  year : 1900 ≤ c.year
  month : 1 ≤ c.month ∧ c.month ≤ 12
  day : 1 ≤ c.day ∧ c.day ≤ (monthLengths c.year).getD (c.month - 1) 0
  hour : c.hour < 24
  minute : c.minute < 60
  second : c.second < 60

/-- Seconds from the beginning of year 0. -/
def Civil.count (c : Civil) : Nat :=
  (daysTo c.year + ((monthLengths c.year).take (c.month - 1)).sum + (c.day - 1)) * 86400 + c.hour * 3600 + c.minute * 60 + c.second

/-- Seconds between two dates. -/
def between (a b : Civil) : Int := (b.count : Int) - a.count

def epoch1970 : Civil := ⟨1970, 1, 1, 0, 0, 0⟩
def epoch1904 : Civil := ⟨1904, 1, 1, 0, 0, 0⟩

/-- The C library's fields for a date: years from 1900, months from 0. -/
def Civil.tm (c : Civil) : Tm := ⟨c.year - 1900, c.month - 1, c.day, c.hour, c.minute, c.second⟩

/-- A number with a fixed number of digits. -/
def digits : (w : Nat) → Nat → List Char
  | 0, _ => []
  | w + 1, n => digits w (n / 10) ++ [Nat.digitChar (n % 10)]

/-- YYYY-MM-DD -/
def isoDate (c : Civil) : List Char := digits 4 c.year ++ ['-'] ++ digits 2 c.month ++ ['-'] ++ digits 2 c.day

/-- hh:mm:ss -/
def isoTime (c : Civil) : List Char := digits 2 c.hour ++ [':'] ++ digits 2 c.minute ++ [':'] ++ digits 2 c.second

end Verif.Date.Spec

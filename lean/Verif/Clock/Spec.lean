import Verif.Strings.Spec

/-
Reading a time of the form `[-]HH:MM:SS.mmm`.
-/
namespace Verif.Clock.Spec
open Verif.Strings.Spec (decimal)

/-- A decimal number below `limit` with exactly `width` digits. -/
def field (width limit : Nat) (s : List Char) : Option Nat :=
  if s.length = width then (decimal s).bind fun n => if n < limit then some n else none else none

/-- What comes before and after the first `c`. -/
def cut (c : Char) (s : List Char) : List Char × List Char := (s.takeWhile (· ≠ c), (s.dropWhile (· ≠ c)).drop 1)

/-- Milliseconds of `HH:MM:SS.mmm`: at least two digits of hours, minutes and seconds below 60. -/
def readTime (s : List Char) : Option Nat :=
  let a := cut ':' s
  let b := cut ':' a.2
  let c := cut '.' b.2
  if 2 ≤ a.1.length then
    (decimal a.1).bind fun h => (field 2 60 b.1).bind fun m => (field 2 60 c.1).bind fun sec => (field 3 1000 c.2).map fun ms =>
      ((h * 60 + m) * 60 + sec) * 1000 + ms
  else none

/-- The same with an optional sign. -/
def readSigned (s : List Char) : Option Int :=
  if s.head? = some '-' then (readTime s.tail).map (fun n : Nat => -(n : Int)) else (readTime s).map (fun n : Nat => (n : Int))

end Verif.Clock.Spec

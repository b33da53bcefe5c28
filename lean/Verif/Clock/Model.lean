import Verif.Strings.Model

/-
Model of the 100 ns times of src/mg/media/hnano.h. An `int64_t` is an integer; overflow is not modelled (the theorems about times below
ask for magnitudes under 2^63). Division of `int64_t` rounds towards zero.
-/
namespace Verif.Clock
open Verif.Strings (decInt)

/-- src/mg/media/hnano.h 35-37: `SEC`. -/
def sec : Int := 1000 * 10000

/-- src/mg/media/hnano.h 41-48: `HundredNano(H, M, S, ML)`. -/
def make (h m s ml : Int) : Int := h * 60 * 60 * sec + m * 60 * sec + s * sec + ml * 10000

/-- src/mg/media/hnano.h 55-58: `H`. -/
def hours (n : Int) : Int := ((n.tdiv (sec * 60))).tdiv 60

/-- src/mg/media/hnano.h 60-63: `M`. -/
def minutes (n : Int) : Int := (n.tdiv (sec * 60)).tmod 60

/-- src/mg/media/hnano.h 65-68: `S`. -/
def seconds (n : Int) : Int := (n.tdiv sec).tmod 60

/-- src/mg/media/hnano.h 70-74: `ML`. -/
def millis (n : Int) : Int := (n.tdiv 10000).tmod 1000

/-- src/mg/media/hnano.h 83-107: `ToString`. -/
def toText (n : Int) : List Char :=
  (if 10 > hours n then ['0'] else []) ++ decInt (hours n) ++ [':'] ++ (if 10 > minutes n then ['0'] else []) ++ decInt (minutes n) ++ [':'] ++
    (if 10 > seconds n then ['0'] else []) ++ decInt (seconds n) ++ ['.'] ++ (if 10 > millis n then ['0'] else []) ++
    (if 100 > millis n then ['0'] else []) ++ decInt (millis n)

/-- src/mg/media/hnano.h 111-125: `hns`. -/
def hns (x : Int) : List Char :=
  (if 0 > x then ['-'] else []) ++ toText (if 0 > x then x * -1 else x * 1)

end Verif.Clock

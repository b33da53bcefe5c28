import Verif.Cmdline.Model
import Verif.Request.Model
/-
What the user of a publishing command means by the options.
-/
namespace Verif.Request.Spec
open Verif.Cmdline

/-- The values given for an option, in their order. -/
def given (m : Map) (name : String) : List Str :=
  match find m name.toList with
  | some i => i.values
  | none => []

/-- The number a value stands for, as an unsigned number of 64 bits. -/
def num (s : Str) : Nat := (((toInt64 s).getD 0) % 2 ^ 64).toNat

/-- A bit rate is given in units of 1000 bits per second. -/
def rate (s : Str) : Nat := (((toInt64 s).getD 0 * 1000) % 2 ^ 64).toNat

/-- All numbers can be read. -/
def Readable (m : Map) : Prop := ∀ name, name = "starttime" ∨ name = "endtime" ∨ name = "bitrate" → ∀ s ∈ given m name, (toInt64 s).isSome

/-- Every input has a start and an end, there is a bit rate for every file, and the same number of further files for every input. -/
def Counts (m : Map) : Prop :=
  (given m "starttime").length = (given m "input").length ∧ (given m "endtime").length = (given m "input").length ∧
    (given m "bitrate").length = (given m "path").length + (given m "input").length ∧ (given m "input").length ∣ (given m "path").length

/-- The calls follow the options: one call for every input, with its start and end; the files of a call are the input and as many of the further files as for any other; taken one after the other the calls use
all further files and all bit rates, each once and in the order given. -/
structure Follows (m : Map) (js : List Job) : Prop where
  starts : js.map (·.start) = (given m "starttime").map num
  ends : js.map (·.stop) = (given m "endtime").map num
  inputs : js.map (fun j => (j.items.map (·.path)).head?) = (given m "input").map some
  paths : js.flatMap (fun j => (j.items.map (·.path)).tail) = given m "path"
  rates : js.flatMap (fun j => j.items.map (·.bitrate)) = (given m "bitrate").map rate
  same : ∀ a ∈ js, ∀ b ∈ js, a.items.length = b.items.length

/-- A language code tells three letters: each in a byte of its own. -/
def packed (s : Str) : Option Nat :=
  match s with
  | [a, b, c] => some (a.toNat * 2 ^ 24 + b.toNat * 2 ^ 16 + c.toNat * 2 ^ 8)
  | _ => none

end Verif.Request.Spec

import Verif.Reader.Model
/-
What is said about the key frames of a track.
-/
namespace Verif.Gop.Spec
open Verif.Reader (Sample)

/-- The key frames among the samples of a track, in order. -/
def keys (xs : List Sample) : List Sample := xs.filter (·.sync)

/-- What is read up to and including the first sample decoded at `stop` or later. -/
def through (stop : Nat) : List (Nat × Sample) → List (Nat × Sample)
  | [] => []
  | x :: xs => if x.2.decoding < stop ∨ stop = 0 then x :: through stop xs else [x]

end Verif.Gop.Spec

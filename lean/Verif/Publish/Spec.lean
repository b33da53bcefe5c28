import Verif.Publish.Model
import Verif.Reader.Spec
/-
What the points should be: the samples of all files one behind the other, cut every `jump` samples.
-/
namespace Verif.Publish.Spec

/-- The samples of a list of files: number of the file and time. -/
def joined : List (List Nat) → List (Nat × Nat)
  | fs => (fs.mapIdx fun k ts => ts.map fun t => (k, t)).flatten

/-- The first sample that is not from the file of the first one. -/
def foreign : List (Nat × Nat) → Option Nat
  | [] => none
  | x :: xs => (xs.find? fun y => y.1 != x.1).map (·.2)

/-- The point of a segment: its first sample, and the first sample from the next file if there is one. -/
def pointOf (seg : List (Nat × Nat)) : Option Event :=
  match seg, foreign seg with
  | [], _ => none
  | x :: _, none => some (.point x.2)
  | x :: _, some t => some (.cross x.2 t)

/-- The segments of `jump` samples each, and the samples left. -/
def segments (jump : Nat) (l : List (Nat × Nat)) : List (List (Nat × Nat)) × List (Nat × Nat) :=
  ((List.range (l.length / jump)).map fun m => (l.drop (m * jump)).take jump, l.drop (l.length / jump * jump))

/-- All points, and what is left for a file still to come: time of the first sample, number of samples. -/
def points (jump : Nat) (l : List (Nat × Nat)) : List (Option Event) × Pending :=
  ((segments jump l).1.map pointOf, ((segments jump l).2.head?).map fun x => (x.2, (segments jump l).2.length))

end Verif.Publish.Spec

namespace Verif.Publish.Spec
open Verif.Reader.Spec (Timed)

/-- When the samples with the durations `D` (in units of the media) are played, in 100 ns, on a track that begins at `off`. -/
def times (scale off : Nat) (D : List Nat) : List Nat := (List.range D.length).map fun p => 10000000 * (D.take p).sum / scale + off

/-- Average duration of a sample in 100 ns. -/
def average (scale : Nat) (D : List Nat) : Nat := 10000000 * D.sum / scale / D.length

/-- A stream with samples of the durations `D`, no composition offsets, used from the sample `first` on and to its end: at least two segments of `jump` samples, as many as there fit into `length`. The start asked for is at
most at the sample `first`, at least one unit of the media behind every sample before, and not between the first two samples. -/
structure UsedFrom (length jump : Nat) (x : Item) (D : List Nat) (first : Nat) : Prop where
  file : ∃ b es, Timed b x.T es ∧ b.ctts = none ∧ Verif.Tables.Spec.expand es = D
  fits : (x.start - x.T.offset) * x.T.scale < 2 ^ 64
  before : ∀ i < first, 10000000 * ((D.take i).sum + 1) ≤ (x.start - x.T.offset) * x.T.scale
  second : first = 1 → 10000000 * (D.take 1).sum ≤ (x.start - x.T.offset) * x.T.scale
  start : ∀ t ∈ (times x.T.scale x.T.offset D).drop first, x.start ≤ t
  stop : ∀ t ∈ times x.T.scale x.T.offset D, t < x.stop
  positive : 0 < average x.T.scale D
  fit : length / average x.T.scale D = jump
  long : first + 2 * jump ≤ D.length

/-- The times of the samples used of all files. -/
def fileTimes (fs : List (Item × List Nat × Nat)) : List (List Nat) := fs.map fun f => (times f.1.T.scale f.1.T.offset f.2.1).drop f.2.2

/-- Neighbours in a list of times, with the time on the time line of the presentation: what should be in one segment. -/
def neighbours (shift : Int) : List Nat → List (Int × Int × Int)
  | t :: u :: rest => ((t : Int) + shift, (t : Int), (u : Int)) :: neighbours shift (u :: rest)
  | _ => []

end Verif.Publish.Spec

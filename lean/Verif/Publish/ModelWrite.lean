import Verif.Publish.Model
import Verif.Dynamic.Model
/-
Model of the way from published points to the segments written: `CMP4DynamicInfo::publish_segmented_composition` and the loop over the points of a stream in the program (/repo/src/mgcli/mp4info.cpp 5604-5690), for points of one
file (no cross points).
-/
namespace Verif.Publish
open Verif.Dynamic (Points)

/-- `publish_segmented_composition`, mp4dynamicinfo.h 964-969, for all points of a file; the time on the time line of the presentation (`computed_time`, mp4dynamic.h 239-256) differs by `shift` from the one in the file. -/
def pointMap (shift : Int) (ts : List Nat) : Points := ts.foldl (fun p (t : Nat) => p.add (t + shift) t) {}

/-- The loop at mp4info.cpp 5604-5690: time of the presentation, start and end in the file of each segment written (5611, 5677-5680); nothing is written for the last point (5617). `none`: an end iterator is read. -/
def writeLoop (p : Points) : List (Int × Int) → Option (List (Int × Int × Int))
  | (t, c) :: x :: rest => do
    let e ← p.getEnd t
    let more ← writeLoop p (x :: rest)
    pure ((t, c, e) :: more)
  | _ => some []

/-- All segments of a stream. -/
def written (p : Points) : Option (List (Int × Int × Int)) := writeLoop p p.computed

end Verif.Publish

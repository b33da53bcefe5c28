import Verif.Presentation.Model
import Verif.Dynamic.Spec
/-
What a user of a presentation relies on, in terms of the streams of the first file and of the `Add` calls.
-/
namespace Verif.Presentation.Spec

/-- The streams of the file that the presentation has, in the order of the file: is it video? -/
def shown (kinds : List Kind) : List Bool :=
  kinds.filterMap fun k => match k with | .video => some true | .audio => some false | .broken => none | .ltc => none

/-- "video", "video1", "video2", ...: the name of stream `j` says how many streams of its kind are before it. -/
def nameOf (vs : List Bool) (j : Nat) (v : Bool) : List Char :=
  let before := (vs.take j).count v
  (if v then "video".toList else "audio".toList) ++ (if before = 0 then [] else Nat.toDigits 10 before)

/-- The streams with their ids and names. -/
def listing (vs : List Bool) : List (Nat × List Char × Bool) := vs.mapIdx fun j v => (j, nameOf vs j v, v)

/-- The order of names: that of a dictionary of character codes. -/
def Before (a b : List Char) : Prop := a.map (·.toNat) < b.map (·.toNat)

/-- The bit rates an `Add` lists for a stream. -/
def rates {P : Type} (video : Bool) (items : List (Item P)) : List Int := items.map fun it => if video then it.bitrate else it.audioBitrate

/-- The bit rates of a stream: for video those the first `Add` lists, for audio the first of them. -/
def allowed {P : Type} (video : Bool) : List (Op P) → List Int
  | [] => []
  | op :: _ => if video then rates true op.items else (rates false op.items).take 1

/-- The time of a point. -/
def timeOf : Point → Int
  | .plain _ t => t
  | .cross _ t _ _ => t

/-- The times published for a stream. -/
def times {P : Type} (i : Nat) (ops : List (Op P)) : List Int := ops.flatMap fun op => (op.points.filter fun p => p.1 = i).map fun p => timeOf p.2

/-- Where the next file of a stream starts: where the stream ended, or at the last point if that is later. -/
def startOf {P : Type} (i : Nat) (done : List (Op P)) : Int := max (done.getLast?.elim 0 fun op => op.ends i) ((times i done).max?.getD 0)

/-- The files of a bit rate of a stream with their starts, in the order they are added. -/
def files {P : Type} (i : Nat) (video : Bool) (rate : Int) : (done todo : List (Op P)) → List (Int × P)
  | _, [] => []
  | done, op :: todo =>
    ((op.items.filter fun it => (if video then it.bitrate else it.audioBitrate) = rate).map fun it => (startOf i done, it.path)) ++
      files i video rate (done ++ [op]) todo

end Verif.Presentation.Spec

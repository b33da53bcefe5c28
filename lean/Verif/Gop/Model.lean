import Verif.Reader.Model
import Verif.Dynamic.Model
import Verif.Publish.Model
/-
Model of the walk over the key frames of a track: `get_IFrame_number` and `get_next_IFrame_number`, which remember the place in the table of key frames (`_last_start_range`, /repo/src/mg/media/mp4parse.h 88, 229, 1299-1322, 2320-2335),
the loop of `move_to_read` over them (/repo/src/mg/media/mp4dynamic.cpp 57-93), and the commands `gop_list` and `pick_samples` of /repo/src/mgcli/mp4info.cpp.
The opened track is the one of module Reader, the choice of segment starts (`publish_composition`) the one of module Dynamic.
-/
namespace Verif.Gop
open Verif.Reader (Track Sample raw)
open Verif.Publish (Res Stop orThrow)

/-- `get_IFrame_number` of a track with key frame table, mp4parse.h 2320-2326 with 1299-1310: the sample found, and `_last_start_range` afterwards. -/
def iframeAt (t : Track) (time : Nat) : Option (Nat × Nat) :=
  match Verif.Tables.decodingSampleNumber t.decMap (raw time t.scale) with
  | none => none
  | some k => (Verif.RangeMap.get t.iframes k).map fun r => (r.2.2, r.2.1)

/-- `get_next_IFrame_number`, mp4parse.h 1312-1322; `upper` is `_last_start_range`. -/
def nextIframe (t : Track) (upper : Nat) : Option (Nat × Nat) := (Verif.RangeMap.get t.iframes (upper + 1)).map fun r => (r.2.2, r.2.1)

/-- `get_next_IFrame_time`, mp4parse.h 2328-2335. -/
def nextTime (t : Track) (upper : Nat) : Option (Nat × Nat) := (nextIframe t upper).bind fun s => (t.composition s.1).map fun c => (c, s.2)

/-- What the index of the presentation is told, and what the loop needs to know of it: length and tolerance of the segments, and what `computed_time` (mp4dynamic.h 239-256) adds to a composition time. -/
structure Setup where
  length : Int
  tolerance : Int
  shift : Int
  stop : Nat

/-- The loop of `move_to_read`, mp4dynamic.cpp 69-88: the published points (time in the file, time in the presentation) and the last time visited (`t_composition`, `none` for UINT64_MAX). -/
def moveLoop (t : Track) (s : Setup) : (fuel : Nat) → (comp : Nat) → (last : Option Nat) → (upper : Nat) → (frag : Option Int) → Res (List (Nat × Int) × Option Nat)
  | 0, _, _, _, _ => .error .endless
  | fuel + 1, comp, last, upper, frag =>
    if comp < s.stop ∧ (last = none ∨ last.getD 0 < comp) then do
      let computed : Int := comp + t.offset + s.shift
      let p := Verif.Dynamic.publishStep s.length s.tolerance frag computed
      let n ← orThrow (nextTime t upper)
      let (pts, z) ← moveLoop t s fuel n.1 (some comp) n.2 p.1
      .ok (if p.2 then (comp, computed) :: pts else pts, z)
    else .ok ([], last)

/-- `move_to_read` for a stream with key frame table, mp4dynamic.cpp 57-93. `begin_stream` has cleared `_last_fragment`. -/
def moveToRead (t : Track) (s : Setup) (start fuel : Nat) : Res (List (Nat × Int) × Option Nat) := do
  let k ← orThrow (iframeAt t start)
  let c ← orThrow (t.composition k.1)
  moveLoop t s fuel c none k.2 none

/-- A line printed by `gop_list`: sample number, time and decoding time. -/
structure Line where
  number : Nat
  time : Nat
  decoding : Nat
deriving DecidableEq, Repr

/-- The loop of `gop_list`, mp4info.cpp 2944-2963; `next` is `next_time`, `none` for UINT64_MAX. The key frame found for the time just read replaces the place in the table. -/
def gopLoop (t : Track) (stop : Nat) : (fuel : Nat) → (time : Nat) → (next : Option Nat) → (upper : Nat) → Res (List Line)
  | 0, _, _, _ => .error .endless
  | fuel + 1, time, next, upper =>
    if (next = none ∨ time < next.getD 0) ∧ time < stop then do
      let n ← orThrow (nextTime t upper)
      let k ← orThrow (iframeAt t n.1)
      let d ← orThrow (t.decoding k.1)
      let ls ← gopLoop t stop fuel (next.getD time) (some n.1) k.2
      .ok (⟨k.1, n.1, d⟩ :: ls)
    else .ok []

/-- `gop_list`, mp4info.cpp 2907-2966, for the video track; `stop` is `end`, or the duration of the movie when `end` is 0. -/
def gopList (t : Track) (start stop fuel : Nat) : Res (List Line) := do
  let k ← orThrow (iframeAt t start)
  let c ← orThrow (t.composition k.1)
  let d ← orThrow (t.decoding k.1)
  let ls ← gopLoop t stop fuel c none k.2
  .ok (⟨k.1, c, d⟩ :: ls)

/-- The loop of `pick_samples`, mp4info.cpp 2845-2898: the samples printed. `only` is the stream asked for (`none` for -1), `running` the vector `streams`. Samples of other streams are passed over; the loop ends when
some stream has got a sample decoded at `stop` or later (0: never). -/
def pickLoop (only : Option Nat) (stop : Nat) : (fuel : Nat) → Verif.Reader.Reader → (running : List Bool) → Option (List (Nat × Sample))
  | 0, _, _ => some []
  | fuel + 1, r, running =>
    match Verif.Reader.next r with
    | none => none
    | some (false, _, _) => some []
    | some (true, none, _) => none
    | some (true, some x, r) =>
      if only.isSome ∧ only ≠ some x.1 then pickLoop only stop fuel r running
      else
        let running := running.set x.1 (decide (x.2.decoding < stop ∨ stop = 0))
        if running.all id then (pickLoop only stop fuel r running).map (x :: ·) else some [x]

/-- `pick_samples`, mp4info.cpp 2768-2905, without the move to the start (C91). -/
def pickSamples (only : Option Nat) (stop fuel : Nat) (r : Verif.Reader.Reader) : Option (List (Nat × Sample)) :=
  pickLoop only stop fuel r (r.streams.map fun _ => true)

end Verif.Gop

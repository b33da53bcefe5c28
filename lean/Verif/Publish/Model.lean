import Verif.Reader.Model
/-
Model of the segment starts of streams without key frame table (audio): `CMP4DynamicDiscreate::publish_no_random_stream` (/repo/src/mg/media/mp4dynamic.cpp 300-447, called at 114 for each such stream of each file), on the
opened track of module Reader. `_generate_only_full_fragment` is true, as the constructor sets it (mp4dynamic.h 396-401). The time on the time line of the presentation (`computed_time`) of each point is left out: a point is
known by its time in the file.
-/
namespace Verif.Publish
open Verif.Tables (sub64)
open Verif.Reader (Track hns)

/-- Why there is no result: an exception (or access outside a table, division by 0), or the loops are still running. -/
inductive Stop where
  | thrown
  | endless
deriving DecidableEq, Repr

abbrev Res := Except Stop

def orThrow {α : Type} : Option α → Res α
  | some a => .ok a
  | none => .error .thrown

/-- `get_composition_time` if the stream has it, `get_decoding_time` if not, with the offset of the stream, mp4dynamic.cpp 324-331, 337-342, 386-391, 437-442. -/
def timeOf (T : Track) (p : Nat) : Res Nat := orThrow ((if T.hasCtts then T.composition p else T.decoding p).map (· + T.offset))

/-- Least composition time of the first samples, or of all with a ctts table: `get_start_time`, mp4parse.h 1365-1390. -/
def startTime (T : Track) : Nat :=
  if T.hasCtts then (T.ordered.headD (0, 0)).1
  else ((T.comps.take (min 100 T.count)).map fun c => c.decoding + c.offset).foldl min ((T.comps.map fun c => c.decoding + c.offset).headD 0)

/-- Greatest composition time among the last samples with the duration of the last one, or of all with a ctts table: `get_end_time_plus_duration`, mp4parse.h 1392-1437 (the window leaves out the sample 100 from the end and the
one before, which are earlier for audio). -/
def endTime (T : Track) : Nat :=
  if T.hasCtts then
    let z := T.ordered.getD (T.count - 1) (0, 0)
    z.1 + ((T.comps[z.2]?).map (·.duration)).getD 0
  else ((T.comps.drop (T.count - min 100 T.count + 1)).map fun c => c.decoding + c.offset).foldl max (((T.comps[T.count - 1]?).map fun c => c.decoding + c.offset).getD 0) +
    ((T.comps[T.count - 1]?).map (·.duration)).getD 0

/-- `get_sample_duration` of a track, mp4parse.h 2224-2238; `media` is the duration of the media header. -/
def sampleDuration (T : Track) (media : Nat) : Nat :=
  if T.count < 2 then hns media T.scale else sub64 (hns (endTime T) T.scale) (hns (startTime T) T.scale) / T.count

/-- What is published: a point, or one that lies across two files. -/
inductive Event where
  | point (time : Nat)
  | cross (time time2 : Nat)
deriving DecidableEq, Repr

/-- `_reporting_start_time` and `_reporting_samples` while the former is not UINT64_MAX. -/
abbrev Pending := Option (Nat × Nat)

/-- The loop at mp4dynamic.cpp 335-345: it reads the time of the same sample again. -/
def waitStart (T : Track) (start p : Nat) : (fuel : Nat) → Nat → Res Nat
  | 0, _ => .error .endless
  | fuel + 1, c =>
    if c < start then do
      let c ← timeOf T p
      waitStart T start p fuel c
    else .ok c

/-- The loop at mp4dynamic.cpp 390-446. -/
def pointLoop (T : Track) (stop jump : Nat) : (fuel : Nat) → (p c : Nat) → Res (List Event × Pending)
  | 0, _, _ => .error .endless
  | fuel + 1, p, c =>
    if c < stop ∧ p < T.count then
      let q := (p + jump) % 2 ^ 64
      if T.count ≤ q then .ok ([.point c], none)
      else if T.count - q < jump then do
        let t ← timeOf T (T.count - (T.count - q))
        .ok ([.point c], some (t, T.count - q))
      else do
        let c' ← timeOf T q
        let (es, pend) ← pointLoop T stop jump fuel q c'
        .ok (.point c :: es, pend)
    else .ok ([], none)

/-- A stream of a file, as `publish_no_random_stream` is given it: track, duration of the media header, `start`, `end`. -/
structure Item where
  T : Track
  media : Nat := 0
  start : Nat := 0
  stop : Nat

/-- `publish_no_random_stream`, mp4dynamic.cpp 300-447. `length` is `_fragment_length`. -/
def publish (length fuel : Nat) (x : Item) (pend : Pending) : Res (List Event × Pending) := do
  let off := x.T.offset
  let p ← orThrow (x.T.compSample (if off < x.start then x.start - off else 0))
  let d := sampleDuration x.T x.media
  if d = 0 then .error .thrown
  else do
    let jump := length / d
    let c ← timeOf x.T p
    let c ← waitStart x.T x.start p fuel c
    match pend with
    | none => pointLoop x.T x.stop jump fuel p c
    | some (t, n) => do
      let q := (p + sub64 jump n) % 2 ^ 64
      let c' ← timeOf x.T q
      let (es, pend) ← pointLoop x.T x.stop jump fuel q c'
      .ok (.cross t c :: es, pend)

/-- The streams of all files, one after the other, `move_to_read` (mp4dynamic.cpp 38-125): the pending samples are kept in the object, whichever stream they are from. The number is the stream of the file. -/
def publishAll (length fuel : Nat) : List (Nat × Item) → Pending → Res (List (Nat × Event) × Pending)
  | [], pend => .ok ([], pend)
  | (i, x) :: xs, pend => do
    let (es, pend) ← publish length fuel x pend
    let (fs, pend) ← publishAll length fuel xs pend
    .ok (es.map (fun e => (i, e)) ++ fs, pend)

end Verif.Publish

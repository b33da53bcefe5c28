import Verif.Reader.Model
/-
Model of the times of a whole stream: `CMP4TimeManager::get_start_time`, `get_end_time`, `get_end_time_plus_duration` (/repo/src/mg/media/mp4parse.h 1364-1436), the functions of `CPM4Track` on them (2220-2253, 2384-2401)
and of `MP4Reader` (2849-2881). The track with its tables is that of module Reader.
-/
namespace Verif.Span
open Verif.Reader (Track hns)
open Verif.Tables (compositionTime decodingTime)

/-- `LOOK_UP_SAMPLES`, mp4parse.h 48. -/
def lookUp : Nat := 100

/-- mp4parse.h 1374-1383: the loop over the samples `idx` to `idx + n - 1`, with the smallest time so far; `none` = exception. -/
def startLoop (t : Track) : (n : Nat) → (idx : Nat) → (start : Nat) → Option Nat
  | 0, _, start => some start
  | n + 1, idx, start =>
    match compositionTime t.comps idx with
    | none => none
    | some x => startLoop t n (idx + 1) (if x < start then x else start)

/-- `get_start_time`, mp4parse.h 1365-1392; `none` = exception, or the first element of an empty array. -/
def startRaw (t : Track) : Option Nat :=
  if t.hasCtts then (t.ordered[0]?).map (·.1)
  else
    match compositionTime t.comps 0 with
    | none => none
    | some x => startLoop t ((if lookUp > t.count then t.count else lookUp) - 1) 1 x

/-- mp4parse.h 1405-1413: the loop down from sample `idx`, `n` times, with the largest time so far. -/
def endLoop (t : Track) : (n : Nat) → (idx : Nat) → (last : Nat) → Option Nat
  | 0, _, last => some last
  | n + 1, idx, last =>
    match compositionTime t.comps idx with
    | none => none
    | some x => endLoop t n (idx - 1) (if x > last then x else last)

/-- `get_end_time`, mp4parse.h 1394-1422. With no samples the number of the last one is 2^64 - 1, which throws. The loop goes from the last but one down to the number after `_sample_count - sample_count`. -/
def endRaw (t : Track) : Option Nat :=
  if t.hasCtts then (if t.count = 0 then none else (t.ordered[t.count - 1]?).map (·.1))
  else if t.count = 0 then none
  else
    match compositionTime t.comps (t.count - 1) with
    | none => none
    | some x => if t.count > 1 then endLoop t ((if lookUp > t.count then t.count else lookUp) - 2) (t.count - 2) x else some x

/-- `get_end_time_plus_duration`, mp4parse.h 1424-1434. -/
def endPlusRaw (t : Track) : Option Nat :=
  match endRaw t with
  | none => none
  | some e =>
    if t.hasCtts then
      match t.ordered[t.count - 1]? with
      | none => none
      | some p => (t.comps[p.2]?).map fun c => (c.duration + e) % 2 ^ 64
    else (t.comps[t.count - 1]?).map fun c => (e + c.duration) % 2 ^ 64

/-- `CPM4Track::get_start_time`, mp4parse.h 2384-2388, shown as start time by `pick_samples`, /repo/src/mgcli/mp4info.cpp 2808-2809. -/
def start (t : Track) : Option Nat := (startRaw t).map (hns · t.scale)

/-- `CPM4Track::get_end_time`, mp4parse.h 2390-2394. -/
def last (t : Track) : Option Nat := (endRaw t).map (hns · t.scale)

/-- `CPM4Track::get_end_time_plus_duration`, mp4parse.h 2396-2400, shown as end time, mp4info.cpp 2810-2811. -/
def endPlus (t : Track) : Option Nat := (endPlusRaw t).map (hns · t.scale)

/-- `get_sample_duration`, mp4parse.h 2224-2237: the mean duration; `mdhd` is the duration in the media header in 100 ns. -/
def mean (t : Track) (mdhd : Nat) : Option Nat :=
  if 2 > t.count then some mdhd
  else
    match endPlus t, start t with
    | some e, some s => some (Verif.Tables.sub64 e s / t.count)
    | _, _ => none

/-- `MP4Reader::get_decoding_start_time`, mp4parse.h 2867-2871. -/
def decodingStart (streams : List Track) (i : Nat) : Option Nat :=
  match streams[i]? with
  | none => none
  | some t => t.decoding 0

/-- `MP4Reader::get_decoding_end_time`, mp4parse.h 2873-2877: the number of the sample is taken from the number of streams. -/
def decodingEnd (streams : List Track) (i : Nat) : Option Nat :=
  match streams[i]? with
  | none => none
  | some t => t.decoding (streams.length - 1)

end Verif.Span

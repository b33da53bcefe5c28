import Verif.Tables.Model
import Verif.Reader.Model
import Mathlib.Data.List.Sort
/-
Model of what `MP4Mux::end` (/repo/src/mg/media/mp4mux.h 364-371) does before the tables are written: the decoding times of
streams that were given none (`compute_auto_decoding_time`) and the start times of the streams among each other
(`level_start_time`), /repo/src/mg/media/mp4write.h, and of the edit list that carries the result into the file.
-/
namespace Verif.Level
open Verif.Tables (SampleDes WStream sub64 cttsEntries sttsEntries pairWords)

/-- The fields of `CMP4Stream` used here (mp4write.h 212-245): the samples in the order they were written,
`_auto_decoding_time` (set before the first sample, so that `_auto_decoding_vector` has one entry per sample,
mp4write.h 892-893), `_has_composition`, `_ctts_offset`, `_stream_offset`, the two time scales. -/
structure LStream where
  samples : List SampleDes
  auto : Bool := false
  hasComposition : Bool := false
  ctts : Nat := 0
  streamOffset : Nat := 0
  scale : Nat := 1000
  mvhdScale : Nat := 1000
deriving DecidableEq, Repr

/-- `get_auto_decoding_duration`, mp4write.h 1161-1212 (non debug build). `std::lower_bound` is the index of the first
element that is not below. -/
def autoDuration (vector : List Nat) (c : Nat) : Nat :=
  let i := vector.findIdx (fun x => decide (c ≤ x))
  if vector[i]? = some c then (if i = 0 then 0 else sub64 c (vector.getD (i - 1) 0)) else 0

/-- Loop variables of `compute_auto_decoding_time`, mp4write.h 1281-1287; the samples already handled. -/
structure AutoState where
  tot : Nat
  offset : Nat := 0
  out : List SampleDes := []

/-- Loop body of `compute_auto_decoding_time`, mp4write.h 1299-1338. -/
def autoStep (vector : List Nat) (s : AutoState) (x : SampleDes) : AutoState :=
  let tot := (s.tot + autoDuration vector x.composition) % 2 ^ 64
  let offset := if tot > x.composition then
      (if tot - x.composition > s.offset then tot - x.composition else s.offset) else s.offset
  { tot, offset, out := s.out ++ [{ x with decoding := tot }] }

/-- `compute_auto_decoding_time` of a stream, mp4write.h 1268-1343; `std::sort` of the vector gives its sorted
permutation. -/
def computeAuto (s : LStream) : LStream :=
  let vector := (s.samples.map (·.composition)).insertionSort (· ≤ ·)
  match vector with
  | [] => s
  | start :: _ =>
    let r := s.samples.foldl (autoStep vector) { tot := start }
    { s with samples := r.out, ctts := r.offset }

/-- `compute_auto_decoding_time` of the movie, mp4write.h 2266-2273. -/
def computeAutoAll (ss : List LStream) : List LStream := ss.map (fun s => if s.auto then computeAuto s else s)

/-- `get_start_time`, mp4write.h 1002-1008. -/
def LStream.start (s : LStream) : Nat := match s.samples with | [] => 2 ^ 64 - 1 | x :: _ => x.composition

/-- `get_decoding_start_time`, mp4write.h 1010-1016. -/
def LStream.decStart (s : LStream) : Nat := match s.samples with | [] => 2 ^ 64 - 1 | x :: _ => x.decoding

/-- Loop of `min_stream_start_number`, mp4write.h 1673-1682: index, minimum, number. -/
def minLoop : (i : Nat) → List LStream → Nat → Option Nat → Option Nat
  | _, [], _, n => n
  | i, s :: ss, min, n => if s.start < min then minLoop (i + 1) ss s.start (some i) else minLoop (i + 1) ss min n

/-- `min_stream_start_number`, mp4write.h 1665-1692; `none` = exception. -/
def minStreamStart (ss : List LStream) : Option Nat := minLoop 0 ss (2 ^ 64 - 1) none

/-- `max_stream_ctts_offset`, mp4write.h 1695-1710. -/
def maxCtts (ss : List LStream) : Nat := ss.foldl (fun m s => if s.ctts > m then s.ctts else m) 0

/-- The offset of one stream, mp4write.h 2294-2306. -/
def offsetOf (startLess maxCtts : Nat) (s : LStream) : Nat :=
  let start := sub64 s.start s.decStart
  let target := s.start
  let offset := if sub64 target startLess > start then sub64 (sub64 target startLess) start else 0
  if maxCtts > s.ctts then (offset + (maxCtts - s.ctts)) % 2 ^ 64 else offset

/-- The loop body of `level_start_time`, mp4write.h 2292-2314. -/
def levelStream (useStreamOffset : Bool) (startLess maxCtts : Nat) (s : LStream) : LStream :=
  let offset := offsetOf startLess maxCtts s
  if offset = 0 then s
  else if useStreamOffset then { s with streamOffset := offset }
  else { s with ctts := (offset + s.ctts) % 2 ^ 64 }

/-- `level_start_time`, mp4write.h 2283-2318; `none` = exception. The maximum is taken before the loop; the loop changes
each stream on its own. -/
def levelStart (useStreamOffset : Bool) (ss : List LStream) : Option (List LStream) :=
  (minStreamStart ss).bind fun n => (ss[n]?).map fun s => ss.map (levelStream useStreamOffset s.decStart (maxCtts ss))

/-- `MP4Mux::end`, mp4mux.h 367-368: `cttsOffset` is the switch `_ctts_offset` of the muxer. -/
def finish (cttsOffset : Bool) (ss : List LStream) : Option (List LStream) :=
  levelStart (!cttsOffset) (computeAutoAll ss)

/-- `write_edts`, mp4write.h 688-716, read by `parse_elst`, mp4parse.h 1181-1196: the empty edit at the start, in units of
the movie; no box when there is no offset. `ts` is `time_scale(hnano, timescale)`, floating point in the code. -/
def elstOffset (ts : Nat → Nat → Nat) (s : LStream) : Nat :=
  if s.streamOffset = 0 then 0 else ts s.mvhdScale s.streamOffset

/-- The boxes of one track that carry the times: `write_stts`, `write_ctts` (mp4write.h 421-556) and `write_edts`; `sm`
stands for the tables of places and sizes. `ts` and `hn` are `time_scale` and `get_hnano`. -/
def trackBoxes (ts hn : Nat → Nat → Nat) (allowEmpty : Bool) (sm : Verif.Tables.SampleManager) (s : LStream) :
    Verif.Reader.TrackBoxes :=
  { sm, stts := pairWords (sttsEntries (ts s.scale) (hn s.scale) allowEmpty (s.samples.map (·.decoding))),
    ctts := (cttsEntries (ts s.scale) s.ctts { samples := s.samples, hasComposition := s.hasComposition }).map pairWords,
    scale := s.scale, elst := elstOffset ts s, mvhdScale := s.mvhdScale }

end Verif.Level

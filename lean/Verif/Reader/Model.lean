import Verif.Tables.Model
/-
Model of the sample level reader of an MP4 file, `MP4Reader` with `CPM4Track` (/repo/src/mg/media/mp4parse.h), and of
the cutting of a fragment out of a track, `add_frames_to_m4f` (/repo/src/mg/media/mp4fragmented.h).

`none` stands for an exception or an access outside a table. Sample bytes are not modelled (a sample is known by its
number, position and size in the file).
-/
namespace Verif.Reader
open Verif.Tables Verif.RangeMap

/-- `CPM4Track` after parsing, mp4parse.h 2050-2068: sample manager, time manager, time scale of the media header,
stream offset of the edit list with the time scale of the movie header, first composition offset when the ctts table has
one entry (`_ctts_stream_offset`, mp4parse.h 1104-1105), kind of track. -/
structure Track where
  sm : SampleManager
  comps : List Comp
  decMap : RMap Dec
  hasCtts : Bool
  ordered : List (Nat × Nat)
  hasStss : Bool
  iframes : RMap Nat
  scale : Nat
  elst : Nat := 0
  mvhdScale : Nat := 1
  cttsCount : Nat := 0
  cttsOffset : Nat := 0
  visual : Bool := false
  ltc : Bool := false

/-- The boxes of a track that matter here, handed to the parsers in this order by `parse_boxes`, mp4parse.h 2071-2155. -/
structure TrackBoxes where
  sm : SampleManager
  stts : List Nat
  ctts : Option (List Nat) := none
  stss : Option (List Nat) := none
  scale : Nat
  elst : Nat := 0
  mvhdScale : Nat := 1
  visual : Bool := false

/-- The ctts box of a track, if there is one (`case box_ctts`, mp4parse.h 2124-2126). -/
def openCtts (comps : List Comp) : Option (List Nat) → Option (Option CttsRd)
  | none => some none
  | some w => (parseCtts comps w).map some

/-- The stss box of a track, if there is one (`case box_stss`, mp4parse.h 2130-2132). -/
def openStss : Option (List Nat) → Option (RMap Nat)
  | none => some []
  | some w => parseStss w

/-- `parse_boxes`, mp4parse.h 2071-2155: stts, then ctts, then stss; `_ctts_entry_count` and `_ctts_stream_offset`
as in `parse_ctts`, mp4parse.h 1089-1105. -/
def openTrack (b : TrackBoxes) : Option Track := do
  let d ← parseStts b.stts
  let c ← openCtts d.comps b.ctts
  let f ← openStss b.stss
  let words := b.ctts.getD []
  let count := words.headD 0
  pure { sm := b.sm, comps := match c with | some c => c.comps | none => d.comps, decMap := d.map,
         hasCtts := b.ctts.isSome, ordered := match c with | some c => c.ordered | none => [],
         hasStss := b.stss.isSome, iframes := f, scale := b.scale, elst := b.elst, mvhdScale := b.mvhdScale,
         cttsCount := count, cttsOffset := if count = 1 then words.getD 2 0 else 0, visual := b.visual }

/-- Time of the media in 100 ns, mp4parse.h 2301, 2309, 2317, 2387: `(1000UL * 10000UL * t) / timescale`. -/
def hns (t scale : Nat) : Nat := 10000000 * t % 2 ^ 64 / scale

/-- Time in the units of the media, mp4parse.h 2323, 2339, 2345: `time * timescale / (1000UL * 10000UL)`. -/
def raw (t scale : Nat) : Nat := t * scale % 2 ^ 64 / 10000000

/-- `get_sample_count`, mp4parse.h 2197-2200. -/
def Track.count (t : Track) : Nat := t.sm.sampleCount

/-- `get_stream_offset`, mp4parse.h 2378-2382. -/
def Track.offset (t : Track) : Nat := hns t.elst t.mvhdScale

/-- `get_composition_time`, mp4parse.h 2297-2303. -/
def Track.composition (t : Track) (n : Nat) : Option Nat := (compositionTime t.comps n).map (hns · t.scale)

/-- `get_decoding_time`, mp4parse.h 2305-2311. -/
def Track.decoding (t : Track) (n : Nat) : Option Nat := (decodingTime t.comps n).map (hns · t.scale)

/-- `get_sample_duration`, mp4parse.h 2313-2319. -/
def Track.duration (t : Track) (n : Nat) : Option Nat := (t.comps[n]?).map (fun c => hns c.duration t.scale)

/-- `ctts_stream_offset`, mp4parse.h 2453-2458. -/
def Track.cttsShift (t : Track) : Nat := hns t.cttsOffset t.scale

/-- `CMP4TimeManager::get_composition_sample_number`, mp4parse.h 1221-1269. -/
def Track.compSampleRaw (t : Track) (time : Nat) : Option Nat :=
  if t.hasCtts then some (compositionSampleNumber t.ordered time) else decodingSampleNumber t.decMap time

/-- `get_IFrame_number`, mp4parse.h 2320-2326 with 1299-1310. -/
def Track.iframeNumber (t : Track) (time : Nat) : Option Nat :=
  if t.hasStss then
    match decodingSampleNumber t.decMap (raw time t.scale) with
    | none => none
    | some k => (Verif.RangeMap.get t.iframes k).map (·.2.2)
  else t.compSampleRaw (raw time t.scale)

/-- `get_composition_sample_number` of the track, mp4parse.h 2343-2376. -/
def Track.compSample (t : Track) (time : Nat) : Option Nat :=
  let d := raw time t.scale
  match t.compSampleRaw d with
  | none => none
  | some n =>
    if n = 0 then some 0
    else if n ≥ t.count then some (t.count - 1)
    else
      match compositionTime t.comps n with
      | none => none
      | some c =>
        let n := if c < d then n + 1 else n
        if n ≥ t.count then some (t.count - 1) else some n

/-- `sample_info`, mp4parse.h 56-61 (with the fields of `media_sample`). -/
structure Sample where
  offset : Nat
  size : Nat
  composition : Nat
  decoding : Nat
  duration : Nat
  sync : Bool
  number : Nat
deriving DecidableEq, Repr

/-- `pick_sample`, mp4parse.h 2408-2428: outer `none` = exception, inner `none` = `false`. -/
def Track.pick (t : Track) (n : Nat) : Option (Option Sample) :=
  if n ≥ t.count then some none
  else do
    let offset ← t.sm.offset n
    let size ← t.sm.size n
    let composition ← t.composition n
    let decoding ← t.decoding n
    let duration ← t.duration n
    let sync ← isIFrame t.iframes n
    pure (some ⟨offset, size, composition, decoding, duration, sync, n⟩)

/-- `MP4Reader`, mp4parse.h 2588-2602: tracks with their current sample, last offset and end of the media data. -/
structure Reader where
  streams : List (Track × Nat)
  last : Nat := 0
  mdatEnd : Nat

/-- 2^64 - 1, `UINT64_MAX` -/
def max64 : Nat := 18446744073709551615

/-- First scan of `next_file_chunks`, mp4parse.h 3087-3127: the stream whose current sample lies first.
Outer `none` = exception, inner `none` = `return false`. -/
def scanMin : (i : Nat) → List (Track × Nat) → (s : Option Nat) → (last : Nat) → Option (Option (Option Nat × Nat))
  | _, [], s, last => some (some (s, last))
  | i, (t, p) :: rest, s, last =>
    if t.count = 0 then scanMin (i + 1) rest s last
    else
      match t.pick p with
      | none => none
      | some (some x) =>
        if x.offset < last then scanMin (i + 1) rest (some i) x.offset else scanMin (i + 1) rest s last
      | some none =>
        if rest.isEmpty ∧ last = max64 then some none else scanMin (i + 1) rest s last

/-- Second scan of `next_file_chunks`, mp4parse.h 3131-3150: the first stream whose current sample lies at `last`. -/
def scanEq : (i : Nat) → List (Track × Nat) → (last : Nat) → Option (Option Nat)
  | _, [], _ => some none
  | i, (t, p) :: rest, last =>
    if t.count = 0 then scanEq (i + 1) rest last
    else
      match t.pick p with
      | none => none
      | some (some x) => if x.offset = last then some (some i) else scanEq (i + 1) rest last
      | some none => scanEq (i + 1) rest last

/-- The loop of `next_file_chunks`, mp4parse.h 3075-3162, with `tries` left. Result: the stream found (inner `none` =
`return false`) and the value of `_last_offset`. -/
def find (streams : List (Track × Nat)) : (tries : Nat) → (last : Nat) → Option (Option Nat × Nat)
  | 0, last => some (none, last)
  | tries + 1, last =>
    if last = 0 then
      match scanMin 0 streams none max64 with
      | none => none
      | some none => some (none, max64)
      | some (some (some s, last)) => some (some s, last)
      | some (some (none, last)) => find streams tries last
    else
      match scanEq 0 streams last with
      | none => none
      | some (some s) => some (some s, last)
      | some none => find streams tries 0

/-- `move_next`, mp4parse.h 2438-2447. -/
def moveNext (streams : List (Track × Nat)) (s : Nat) : List (Track × Nat) :=
  match streams[s]? with
  | none => streams
  | some (t, p) => streams.set s (t, if p < t.count then p + 1 else p)

/-- `next_file_chunks`, mp4parse.h 3069-3177: the returned flag, the sample put into `ms` with its stream (`none` when
the search failed) and the new state. -/
def next (r : Reader) : Option (Bool × Option (Nat × Sample) × Reader) :=
  match find r.streams 15 r.last with
  | none => none
  | some (none, last) => some (false, none, { r with last })
  | some (some s, last) =>
    match r.streams[s]? with
    | none => none
    | some (t, p) =>
      match t.pick p with
      | some (some x) =>
        let last := (last + x.size) % 2 ^ 64
        some (decide (last ≤ r.mdatEnd), some (s, x), { r with streams := moveNext r.streams s, last })
      | _ => none

/-- The reading loop `while(reader.next_file_chunks(sample)) ...` (mp4fragmented.h 608, mp4edit.cpp, mp4dynamic.cpp):
the samples delivered, at most `fuel`. -/
def readAll : (fuel : Nat) → Reader → Option (List (Nat × Sample))
  | 0, _ => some []
  | fuel + 1, r =>
    match next r with
    | none => none
    | some (false, _, _) => some []
    | some (true, none, _) => none
    | some (true, some x, r) => (readAll fuel r).map (x :: ·)

/-- Position of one stream in `move`, mp4parse.h 3035-3061. -/
def moveStream (decodingTime compositionTime : Nat) (t : Track) (p : Nat) : Option Nat :=
  if t.count = 0 then some p
  else if ¬ t.hasStss ∧ ¬ t.ltc then
    if compositionTime > t.offset then t.compSample (compositionTime - t.offset) else some 0
  else decodingSampleNumber t.decMap (raw decodingTime t.scale)

/-- All the streams in `move`. -/
def moveStreams (d c : Nat) : List (Track × Nat) → Option (List (Track × Nat))
  | [] => some []
  | (t, p) :: rest =>
    match moveStream d c t p, moveStreams d c rest with
    | some n, some rest => some ((t, n) :: rest)
    | _, _ => none

/-- The sample number `move` looks for in the leading stream, mp4parse.h 3018-3027. -/
def leadSample (t : Track) (time : Nat) : Option Nat :=
  match t.iframeNumber time with
  | none => none
  | some n =>
    if t.hasStss then some n
    else
      match t.compSample (sub64 time t.offset) with
      | none => none
      | some n => some (if time < t.offset then 0 else n)

/-- `move` with a stream, mp4parse.h 3016-3066. -/
def move (r : Reader) (time stream : Nat) : Option Reader :=
  match r.streams[stream]? with
  | none => none
  | some (t, _) =>
    match leadSample t time with
    | none => none
    | some n =>
      match t.decoding n, t.composition n with
      | some d, some c =>
        match moveStreams d ((c + t.offset) % 2 ^ 64) r.streams with
        | none => none
        | some streams => some { r with streams, last := 0 }
      | _, _ => none

/-- The stream used by `move` when none is given, mp4parse.h 2998-3014: the first video stream, else 0. -/
def defaultStream (r : Reader) : Nat :=
  match r.streams.findIdx? (fun s => s.1.visual) with
  | some i => i
  | none => 0

/-- The sample handed to `add_sample`, mp4fragmented.h 619-657: the decoding time is shifted by the composition offset
when the ctts table has one entry (622-627, `stream_ctts_offset` mp4parse.h 2987-2990). -/
def toAdded (t : Track) (x : Sample) : Sample :=
  if t.cttsCount = 1 then { x with decoding := (x.decoding + t.cttsShift) % 2 ^ 64 } else x

/-- The base media decode time set at the first sample, mp4fragmented.h 659-671. `none` as base = `UINT64_MAX`. -/
def baseTime (start : Nat) (base : Option Nat) (a : Sample) : Nat :=
  sub64 (base.getD start) (sub64 a.composition a.decoding)

/-- The loop of `add_frames_to_m4f`, mp4fragmented.h 608-675, over at most `fuel` samples; `set` is the base media
decode time already set. -/
def framesLoop (t : Track) (id start «end» : Nat) (base : Option Nat) :
    (fuel : Nat) → Reader → (set : Option Nat) → Option (List Sample × Option Nat)
  | 0, _, set => some ([], set)
  | fuel + 1, r, set =>
    match next r with
    | none => none
    | some (false, _, _) => some ([], set)
    | some (true, none, _) => none
    | some (true, some (s, x), r) =>
      if s ≠ id then framesLoop t id start «end» base fuel r set
      else if (x.composition + t.offset) % 2 ^ 64 ≥ «end» then some ([], set)
      else if (x.composition + t.offset) % 2 ^ 64 < start then framesLoop t id start «end» base fuel r set
      else
        let a := toAdded t x
        let set := match set with | some b => some b | none => some (baseTime start base a)
        (framesLoop t id start «end» base fuel r set).map (fun p => (a :: p.1, p.2))

/-- Upper bound of the number of calls of `next_file_chunks` that can deliver something. -/
def remaining (streams : List (Track × Nat)) : Nat := (streams.map (fun s => s.1.count - s.2)).sum

/-- `add_frames_to_m4f`, mp4fragmented.h 571-683, for an empty fragment: the samples added and the base media decode
time. The loop runs while samples are delivered (see `remaining`). Encryption is in another module. -/
def addFrames (r : Reader) (id start «end» : Nat) (base : Option Nat) : Option (List Sample × Option Nat) :=
  match r.streams[id]? with
  | none => none
  | some (t, _) =>
    match move r start id with
    | none => none
    | some r => framesLoop t id start «end» base (remaining r.streams + 1) r none

end Verif.Reader

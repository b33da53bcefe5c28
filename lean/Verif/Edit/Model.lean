import Verif.Reader.Model
import Verif.Dynamic.Model
/-
Model of joining and cutting MP4 files: `CMP4EditBase::do_edit_header_mux` and `do_edit_mux` (/repo/src/mg/media/mp4edit.cpp) with `CMP4Edit_::Add` (/repo/src/mg/media/mp4edit.h), the code behind
`mg -k:mux`, `MP42TS` and `MP42HLS`. The result is what the muxer is given (`body_add_sample`).

The file is read by the model of `MP4Reader` (module Reader), the join times are those of the model of `CMediaJoin` (module Dynamic). Simplifications: no LTC time code stream; a release build
(assertions are empty); `physical` is true. Times are natural numbers and integers: wrapping of `int64_t` and `uint64_t` is modelled only where a negative value becomes unsigned (`u64`), so the model
speaks of times below 2^62. `info.map` with the arrays `video_info` and `audio_info` is one list with an entry per stream of the muxer. `none` stands for an exception or undefined behaviour.
-/
namespace Verif.Edit
open Verif.Reader (Track Sample Reader next move defaultStream remaining)

/-- What the file says about a stream: `IsValidStream`, `IsVisual`, the first sequence and picture parameter set (`get_nal_sequence`, `get_nal_picture`), the audio configuration (object type, sample rate,
channels), and the average duration `get_sample_duration(stream)`, mp4parse.h 2224-2237. -/
structure Stream where
  valid : Bool := true
  video : Bool := false
  sps : List Nat := []
  pps : List Nat := []
  audio : Nat × Nat × Nat := (0, 0, 0)
  avg : Nat := 0

/-- A file: its streams, its reader, its bytes. -/
structure File where
  streams : List Stream
  reader : Reader
  bytes : List Nat

/-- `stream_edit_info`, mp4edit.h 31-56, between two files: `stream_composition`, `stream_duration`, `stream_decoding`, `last_decoding`. -/
structure Place where
  comp : Nat := 0
  dur : Nat := 0
  dec : Nat := 0
  lastDec : Nat := 0
deriving DecidableEq, Repr

/-- `edit_info`, mp4edit.h 126-150: the streams of the muxer with their ids (`video_info`, `audio_info`), their places, and `file_count`. -/
structure Info where
  videos : List (Nat × List Nat × List Nat)
  audios : List (Nat × (Nat × Nat × Nat))
  places : List Place
  fileCount : Nat

/-- The loop of `do_edit_header_mux`, mp4edit.cpp 43-163: the streams that can be parsed are announced to the muxer, which numbers them (`id`). -/
def header : (id : Nat) → List Stream → List (Nat × List Nat × List Nat) × List (Nat × (Nat × Nat × Nat))
  | _, [] => ([], [])
  | id, s :: ss =>
    if !s.valid then header id ss
    else
      let (vs, as) := header (id + 1) ss
      if s.video then ((id, s.sps, s.pps) :: vs, as) else (vs, (id, s.audio) :: as)

/-- `do_edit_header_mux`, mp4edit.cpp 34-168, called for the first file only (mp4edit.h 280-286). -/
def open_ (ss : List Stream) : Info :=
  let (vs, as) := header 0 ss
  ⟨vs, as, List.replicate (vs.length + as.length) {}, 0⟩

/-- `parsable_stream_count`, mp4parse.h 2751-2759. -/
def parsable (ss : List Stream) : Nat := (ss.filter (·.valid)).length

/-- `memcmp(a, b, b.length) == 0`; `none`: `a` is shorter. -/
def memEq (a b : List Nat) : Option Bool := if a.length < b.length then none else some (a.take b.length == b)

/-- The comparison of the streams with those of the first file, mp4edit.cpp 202-302, from stream `i` on, with `video_stream` and `audio_stream`. -/
def compare (info : Info) : (i v a : Nat) → List Stream → Option Unit
  | _, _, _, [] => some ()
  | i, v, a, s :: ss =>
    if !s.valid then compare info (i + 1) v a ss
    else if s.video then
      let (id, sps, pps) := info.videos.getD v (0, [], [])
      if i ≠ id then none
      else if sps.length ≠ s.sps.length then none
      else if memEq s.sps sps ≠ some true then none
      else if memEq s.pps pps ≠ some true then none
      else compare info (i + 1) (v + 1) a ss
    else
      let (id, cfg) := info.audios.getD a (0, (0, 0, 0))
      if i ≠ id then none
      else if cfg ≠ s.audio then none
      else compare info (i + 1) v (a + 1) ss

/-- The checks at the beginning of `do_edit_mux`, mp4edit.cpp 188-302. -/
def check (info : Info) (ss : List Stream) : Option Unit :=
  if parsable ss ≠ info.audios.length + info.videos.length then none else compare info 0 0 0 ss

/-- `next_composition` and `next_decoding` of a stream; `none`: still `INT64_MAX`. -/
abbrev Next := Option (Nat × Nat)

/-- `ms.composition_time + get_stream_offset(ms.stream)`. -/
def presented (t : Track) (x : Sample) : Nat := x.composition + t.offset

/-- The track of a stream. -/
def trackOf (f : File) (s : Nat) : Option Track := (f.reader.streams[s]?).map (·.1)

/-- Whether a new earliest time has been found, mp4edit.cpp 342, 353. -/
def improves (n : Next) (c : Nat) : Bool := match n with | none => true | some (m, _) => decide (m > c)

/-- The search for the first times of the streams, mp4edit.cpp 304-397, with `current_look_head` so far; at most `fuel` samples. -/
def lookHead (f : File) (start : Nat) (discard : Bool) : (fuel : Nat) → Reader → (look : Nat) → List Next → Option (List Next)
  | 0, _, _, _ => none
  | fuel + 1, r, look, ns =>
    match next r with
    | some (true, some (s, x), r') =>
      match trackOf f s with
      | none => none
      | some t =>
        if presented t x < start ∧ discard = true then
          if t.hasStss then none else lookHead f start discard fuel r' look ns
        else
          match ns[s]? with
          | none => none
          | some n =>
            if improves n (presented t x) then lookHead f start discard fuel r' 0 (ns.set s (some (presented t x, x.decoding)))
            else if ns.any (·.isNone) ∨ look + 1 < 20 then lookHead f start discard fuel r' (look + 1) ns
            else some ns
    | _ => none

/-- From `int64_t` to `uint64_t`. -/
def u64 (x : Int) : Nat := if x < 0 then (x + 18446744073709551616).toNat else x.toNat

/-- Where a stream goes on: `stream_composition`, `stream_decoding`, `next_composition`, `next_decoding`, and `last_decoding`. -/
structure Join where
  comp : Nat
  dec : Nat
  nextComp : Nat
  nextDec : Nat
  lastDec : Nat
deriving DecidableEq, Repr

/-- Start and end of the streams handed to `CMediaJoin`, mp4edit.cpp 480-483. -/
def compPairs (ps : List Place) (ns : List (Nat × Nat)) : List (Int × Int) := List.zipWith (fun p n => ((n.1 : Int), ((p.comp + p.dur : Nat) : Int))) ps ns
def decPairs (ps : List Place) (ns : List (Nat × Nat)) : List (Int × Int) := List.zipWith (fun p n => ((n.2 : Int), ((p.dec + p.dur : Nat) : Int))) ps ns

/-- The places of the streams, mp4edit.cpp 444-577, stream by stream from `i` on. -/
def joinAll (cs ds : List (Int × Int)) : (i : Nat) → List Place → List (Nat × Nat) → Option (List Join)
  | i, p :: ps, n :: ns =>
    match Dynamic.joinTime cs i, Dynamic.joinTime ds i, joinAll cs ds (i + 1) ps ns with
    | some c, some d, some js => some (⟨u64 c, u64 d, n.1, n.2, p.lastDec⟩ :: js)
    | _, _, _ => none
  | _, _, _ => some []

/-- What `add_sample` of the muxer is called with, mp4edit.cpp 724-733. -/
structure Added where
  stream : Nat
  body : List Nat
  sync : Bool
  comp : Nat
  dec : Nat
  dur : Nat
deriving DecidableEq, Repr

/-- `set_position(offset)` and `read_bytes(size)`, mp4edit.cpp 643-644. -/
def readBytes (bytes : List Nat) (offset size : Nat) : Option (List Nat) := if offset + size ≤ bytes.length then some ((bytes.drop offset).take size) else none

/-- `last_composition` of a sample, mp4edit.cpp 671. -/
def compOf (j : Join) (t : Track) (x : Sample) : Nat := u64 ((j.comp : Int) + ((presented t x : Int) - j.nextComp))

/-- `last_decoding` of a sample, mp4edit.cpp 672-675. -/
def decOf (j : Join) (t : Track) (x : Sample) : Nat := if t.hasCtts then u64 ((j.dec : Int) + ((x.decoding + t.offset : Nat) - j.nextDec)) else compOf j t x

/-- `last_composition[]` and `last_duration[]`, mp4edit.cpp 736-746. -/
def updateEnd (e : Nat × Nat) (comp dur : Nat) : Nat × Nat := if e.1 < comp then (comp, dur) else e

/-- The rest of one round of the loop after it has been decided that sample `x` of stream `s` is written, mp4edit.cpp 639-746: the sample and the new ends and decoding time of the stream. -/
def write (f : File) (js : List Join) (s : Nat) (t : Track) (x : Sample) (ends : List (Nat × Nat)) : Option (Added × List (Nat × Nat) × List Join) := do
  let j ← js[s]?
  let st ← f.streams[s]?
  let body ← readBytes f.bytes x.offset x.size
  let e ← ends[s]?
  let dur := if x.duration ≠ 0 then x.duration else st.avg
  some (⟨s, body, x.sync, compOf j t x, decOf j t x, x.duration⟩, ends.set s (updateEnd e (compOf j t x) dur), js.set s { j with lastDec := decOf j t x })

/-- The streams that are not yet at the end, mp4edit.cpp 615-621. -/
def active (stop s : Nat) (x : Sample) (flags : List Bool) : List Bool := if 0 < stop then flags.set s (decide (x.decoding < stop)) else flags

/-- Whether a sample is left out, mp4edit.cpp 624-637 (outer `none`: exception). -/
def leftOut (start stop : Nat) (discard : Bool) (t : Track) (x : Sample) : Option Bool :=
  if presented t x < start ∧ discard = true then (if t.hasStss then none else some true)
  else some (decide (0 < stop ∧ stop ≤ presented t x))

/-- The loop over the samples, mp4edit.cpp 610-752. -/
def muxLoop (f : File) (start stop : Nat) (discard : Bool) : (fuel : Nat) → Reader → List Bool → List Join → List (Nat × Nat) → Option (List Added × List Join × List (Nat × Nat))
  | 0, _, _, js, ends => some ([], js, ends)
  | fuel + 1, r, flags, js, ends =>
    match next r with
    | none => none
    | some (false, _, _) => some ([], js, ends)
    | some (true, none, _) => none
    | some (true, some (s, x), r') =>
      match trackOf f s with
      | none => none
      | some t =>
        match leftOut start stop discard t x with
        | none => none
        | some true => if (active stop s x flags).any id then muxLoop f start stop discard fuel r' (active stop s x flags) js ends else some ([], js, ends)
        | some false =>
          match write f js s t x ends with
          | none => none
          | some (a, ends, js) =>
            if (active stop s x flags).any id then (muxLoop f start stop discard fuel r' (active stop s x flags) js ends).map fun o => (a :: o.1, o.2)
            else some ([a], js, ends)

/-- `stream_duration`, `stream_composition` and `stream_decoding` for the next file, mp4edit.cpp 756-781. -/
def close (js : List Join) (ends : List (Nat × Nat)) : List Place := List.zipWith (fun j e => ⟨e.1, e.2, j.lastDec, j.lastDec⟩) js ends

/-- `MAX_STREAMS`, mp4edit.h 28. -/
def maxStreams : Nat := 16

/-- `do_edit_mux`, mp4edit.cpp 172-782. (The second `move`, 594, does not depend on how far the tracks have been read.) -/
def doEdit (info : Info) (f : File) (start stop : Nat) (discard : Bool) : Option (List Added × Info) := do
  check info f.streams
  let r ← move f.reader start (defaultStream f.reader)
  let ns ← lookHead f start discard (remaining r.streams + 1) r 0 (List.replicate info.places.length none)
  let ns := ns.map (·.getD (0, 0))
  let ps := if info.fileCount = 0 then info.places.map fun p => { p with comp := 0, dur := 0, dec := 0 } else info.places
  let js ← joinAll (compPairs ps ns) (decPairs ps ns) 0 ps ns
  let (out, js, ends) ← muxLoop f start stop discard (remaining r.streams + 1) r (List.replicate f.streams.length true) js (List.replicate maxStreams (0, 0))
  some (out, { info with places := close js ends, fileCount := info.fileCount + 1 })

/-- `Add`, mp4edit.h 277-302. -/
def add (info : Option Info) (f : File) (start stop : Nat) (discard : Bool) : Option (List Added × Info) :=
  doEdit (info.getD (open_ f.streams)) f start stop discard

/-- All the calls of `Add` of `do_mp4_mux`, mgcli/mp4info.cpp 3765-3791: what the muxer is given for each file. -/
def addAll (discard : Bool) : Option Info → List (File × Nat × Nat) → Option (List (List Added))
  | _, [] => some []
  | info, (f, start, stop) :: fs =>
    match add info f start stop discard with
    | none => none
    | some (out, info) => (addAll discard (some info) fs).map (out :: ·)

end Verif.Edit

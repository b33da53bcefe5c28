import Verif.Dynamic.Model
import Verif.Strings.Model
/-
Model of the presentation that `CMP4DynamicInfo` builds from a sequence of `Add` calls: the streams with their names and ids (`DynamicPresentation`), the bit rates and files of a stream
(`DynamicStream`), and the calls the joiner makes on them (src/mg/media/mp4dynamicinfo.h, src/mg/media/mp4dynamic.h, src/mg/media/mp4dynamic.cpp).

The index of the segments of a stream and the files of a bit rate are those of module Dynamic. A `std::map` is the list of its entries in the order of its iterators; a stream is stored under its own
name, so the map of the streams is the list of the streams. Times are integers, as in module Dynamic. Not modelled here: the codec private data and the picture sizes, the reading of the other
files of an `Add` call (they can be opened and have the video stream), the joiner itself (module Edit), which decides which points are published and where a stream ends: that is input. `none` stands
for an exception or for a call on a null pointer.
-/
namespace Verif.Presentation
open Verif.Dynamic (Points CrossPoint mapSet mapFind mapRebase bitrateAdd getPath)
open Verif.Strings (dec)

/-- What the joiner finds for a stream of the first file, mp4edit.cpp 45-162: it cannot be parsed (`IsValidStream` is false), or it is video, LTC, or else audio. -/
inductive Kind
  | broken
  | video
  | ltc
  | audio
deriving DecidableEq

/-- `DynamicStream`, src/mg/media/mp4dynamicinfo.h 496-523, with its kind (`is_video`, `is_audio`). `_bitrates` maps a rate to a pointer: `none` is the null pointer. -/
structure Stream (P : Type) where
  name : List Char
  id : Nat
  video : Bool
  points : Points := {}
  currentEnd : Int := 0
  bitrates : List (Int × Option (List (Int × P))) := []

/-- `operator<` of two strings, src/mg/alxstring.h 869-874: `strcmp` is negative. -/
def nameLt : List Char → List Char → Bool
  | [], [] => false
  | [], _ :: _ => true
  | _ :: _, [] => false
  | a :: x, b :: y => if a.toNat < b.toNat then true else if b.toNat < a.toNat then false else nameLt x y

/-- `_streams.insert(name, pv)`, src/mg/media/mp4dynamicinfo.h 805, 829: an entry that is there already stays. -/
def insert {P : Type} : List (Stream P) → Stream P → List (Stream P)
  | [], s => [s]
  | x :: xs, s => if nameLt s.name x.name then s :: x :: xs else if nameLt x.name s.name then x :: insert xs s else x :: xs

/-- `video_count`, src/mg/media/mp4dynamicinfo.h 873-884. -/
def videoCount {P : Type} (ss : List (Stream P)) : Nat := (ss.filter fun s => s.video).length

/-- `audio_count`, src/mg/media/mp4dynamicinfo.h 860-871. -/
def audioCount {P : Type} (ss : List (Stream P)) : Nat := (ss.filter fun s => !s.video).length

/-- `video_private_data` with `AddVideoStream`, src/mg/media/mp4dynamicinfo.h 1133-1144, 787-810. -/
def addVideo {P : Type} (ss : List (Stream P)) (id : Nat) : List (Stream P) :=
  let c := videoCount ss
  insert ss { name := "video".toList ++ (if 0 < c then dec c else []), id := id, video := true }

/-- `audio_private_data` with `AddAudioStream`, src/mg/media/mp4dynamicinfo.h 1146-1158, 812-834. -/
def addAudio {P : Type} (ss : List (Stream P)) (id : Nat) : List (Stream P) :=
  let c := audioCount ss
  insert ss { name := "audio".toList ++ (if 0 < c then dec c else []), id := id, video := false }

/-- The loop of `do_edit_header_mux`, src/mg/media/mp4edit.cpp 43-163, with `add_visual_stream` and `add_audio_stream` of `CMP4Dynamic` and `CMP4EmptyMux` (src/mg/media/mp4dynamic.cpp 121-234,
src/mg/media/mp4dynamic.h 42-82): `id` is `_streams`; an LTC stream takes its id from another counter and is not told to the presentation. -/
def header {P : Type} : (id : Nat) → List Kind → List (Stream P) → List (Stream P)
  | _, [], ss => ss
  | id, .broken :: ks, ss => header id ks ss
  | id, .ltc :: ks, ss => header id ks ss
  | id, .video :: ks, ss => header (id + 1) ks (addVideo ss id)
  | id, .audio :: ks, ss => header (id + 1) ks (addAudio ss id)

/-- `get_by_index(i)`, src/mg/media/mp4dynamicinfo.h 886-899, and `get(int)` 847-857: the first stream with this id; `none` is the null pointer. -/
def byIndex {P : Type} (ss : List (Stream P)) (i : Nat) : Option (Stream P) := ss.find? fun s => s.id = i

/-- `get(name)`, src/mg/media/mp4dynamicinfo.h 836-844. -/
def byName {P : Type} (ss : List (Stream P)) (n : List Char) : Option (Stream P) := ss.find? fun s => !nameLt s.name n && !nameLt n s.name

/-- A change of the stream `get_by_index(i)` points to, if there is one (`if(pStream)`, src/mg/media/mp4dynamicinfo.h 999, 1099). -/
def modify {P : Type} (i : Nat) (f : Stream P → Option (Stream P)) : List (Stream P) → Option (List (Stream P))
  | [] => some []
  | s :: ss => if s.id = i then (f s).map (· :: ss) else (modify i f ss).map (s :: ·)

/-- `get_by_index(i)->f(...)`: a call on the null pointer when there is no such stream. -/
def deref {P : Type} (i : Nat) (f : Stream P → Option (Stream P)) (ss : List (Stream P)) : Option (List (Stream P)) :=
  match byIndex ss i with
  | none => none
  | some _ => modify i f ss

/-- `dynamic_item`, src/mg/media/mp4dynamic.h 134-147: a file with the bit rates of its video and audio. -/
structure Item (P : Type) where
  bitrate : Int
  audioBitrate : Int
  path : P

/-- The bit rate of an item for a stream, src/mg/media/mp4dynamicinfo.h 995-1005, 1095-1106. -/
def rateOf {P : Type} (video : Bool) (it : Item P) : Int := if video then it.bitrate else it.audioBitrate

/-- `AddBitRate`, src/mg/media/mp4dynamicinfo.h 537-544: a new, empty bit rate. -/
def addBitRate {P : Type} (s : Stream P) (r : Int) : Stream P := { s with bitrates := mapSet s.bitrates r (some []) }

/-- The bit rates made for a stream at the first `Add`, src/mg/media/mp4dynamicinfo.h 993-1083: the one of the first item and, for video, those of the other items. -/
def createRates {P : Type} (s : Stream P) : List (Item P) → Stream P
  | [] => s
  | it :: its => (its.foldl (fun s it => if s.video then addBitRate s (rateOf s.video it) else s) (addBitRate s (rateOf s.video it)))

/-- `get_current_end`, src/mg/media/mp4dynamicinfo.h 575-582. -/
def getCurrentEnd {P : Type} (s : Stream P) : Int := if s.currentEnd < s.points.maxt then s.points.maxt else s.currentEnd

/-- One file for a bit rate with the files `paths`, src/mg/media/mp4dynamicinfo.h 1112-1122. -/
def register {P : Type} (first : Bool) (s : Stream P) (it : Item P) (paths : List (Int × P)) : Stream P :=
  { s with
    bitrates := mapSet s.bitrates (rateOf s.video it) (some (bitrateAdd paths (getCurrentEnd s) it.path))
    points := if first then s.points.addFileCross (getCurrentEnd s) else s.points }

/-- The files of an `Add` for a stream, src/mg/media/mp4dynamicinfo.h 1093-1128; `first` says that k = 0. `none`: "invalid bitrate specified". -/
def addFiles {P : Type} (first : Bool) : List (Item P) → Stream P → Option (Stream P)
  | [], s => some s
  | it :: its, s =>
    match mapFind s.bitrates (rateOf s.video it) with
    | none => none
    | some none => none
    | some (some paths) => addFiles false its (register first s it paths)

/-- `f` for i = 0, 1, ..., n - 1. -/
def forAll {A : Type} (f : Nat → A → Option A) : Nat → A → Option A
  | 0, a => some a
  | n + 1, a => (forAll f n a).bind (f n)

/-- `begin_processing`, src/mg/media/mp4dynamicinfo.h 984-1131; `made` is `_bit_rates`. -/
def beginProcessing {P : Type} (made : Bool) (streams : Nat) (items : List (Item P)) (ss : List (Stream P)) : Option (List (Stream P)) :=
  let ss := if !made then forAll (fun i ss => modify i (fun s => some (createRates s items)) ss) streams ss else some ss
  ss.bind (forAll (fun i ss => modify i (addFiles true items) ss) streams)

/-- A point that is published: `publish_segmented_composition` and `publish_segmented_composition_cross`, src/mg/media/mp4dynamicinfo.h 962-982. -/
inductive Point
  | plain (composition computed : Int)
  | cross (composition computed composition2 computed2 : Int)
deriving DecidableEq

/-- `AddPoint` and `AddPointCross`, src/mg/media/mp4dynamicinfo.h 546-559, with the arguments as they are given in 967 and 976-979. -/
def addPoint {P : Type} (s : Stream P) : Point → Stream P
  | .plain composition computed => { s with points := s.points.add computed composition }
  | .cross composition computed composition2 computed2 => { s with points := s.points.addCross computed composition computed2 composition2 }

/-- The points published while a file is read, each with its stream (src/mg/media/mp4dynamic.cpp 67-112). -/
def publish {P : Type} : List (Nat × Point) → List (Stream P) → Option (List (Stream P))
  | [], ss => some ss
  | (i, p) :: ps, ss => (deref i (fun s => some (addPoint s p)) ss).bind (publish ps)

/-- `end_processing`, src/mg/media/mp4dynamicinfo.h 1169-1183; `ends i` is `get_stream_end(i) + _stream_start_offset[i]`. -/
def endProcessing {P : Type} (ends : Nat → Int) (ss : List (Stream P)) : Option (List (Stream P)) :=
  forAll (fun i ss => deref i (fun s => some { s with currentEnd := ends i }) ss) ss.length ss

/-- An `Add` call: the files, the number of streams of the first of them, what the joiner publishes and where the streams end afterwards. -/
structure Op (P : Type) where
  items : List (Item P)
  streams : Nat
  points : List (Nat × Point)
  ends : Nat → Int

/-- `CMP4Dynamic::Add`, src/mg/media/mp4dynamic.cpp 236-279, after the header. -/
def add {P : Type} (made : Bool) (op : Op P) (ss : List (Stream P)) : Option (List (Stream P)) :=
  ((beginProcessing made op.streams op.items ss).bind (publish op.points)).bind (endProcessing op.ends)

/-- The `Add` calls, one after the other; `_bit_rates` is false at first. -/
def adds {P : Type} : (made : Bool) → List (Op P) → List (Stream P) → Option (List (Stream P))
  | _, [], ss => some ss
  | made, op :: ops, ss => (add made op ss).bind (adds true ops)

/-- A presentation made from the streams of the first file and the `Add` calls, src/mg/media/mp4dynamic.cpp 250-256 for the header. -/
def build {P : Type} (kinds : List Kind) (ops : List (Op P)) : Option (List (Stream P)) := adds false ops (header 0 kinds [])

/-- `End`, src/mg/media/mp4dynamicinfo.h 1185-1202: a closing point for every stream; `ends i` is `get_stream_end(i)` and `get_stream_composition_end(i)`. -/
def close {P : Type} (ends : Nat → Int × Int) (ss : List (Stream P)) : Option (List (Stream P)) :=
  forAll (fun i ss => deref i (fun s => some (addPoint s (.plain (ends i).2 (ends i).1))) ss) ss.length ss

/-- The first loop of `DynamicPresentation::rebase`, src/mg/media/mp4dynamicinfo.h 918-925: the smallest time, for i = 0, ..., n - 1. -/
def minTime {P : Type} (ss : List (Stream P)) : Nat → Option Int
  | 0 => some (2 ^ 63 - 1)
  | n + 1 => (minTime ss n).bind fun m => (byIndex ss n).map fun s => if s.points.mint < m then s.points.mint else m

/-- `DynamicStream::rebase`, src/mg/media/mp4dynamicinfo.h 585-594; a null pointer among the bit rates is dereferenced. -/
def rebaseStream {P : Type} (offset : Int) (s : Stream P) : Option (Stream P) :=
  if s.bitrates.all (fun b => b.2.isSome) then
    some { s with points := s.points.rebase offset, bitrates := s.bitrates.map fun b => (b.1, b.2.map fun m => mapRebase m offset) }
  else none

/-- `DynamicPresentation::rebase`, src/mg/media/mp4dynamicinfo.h 916-935. -/
def rebase {P : Type} (ss : List (Stream P)) : Option (List (Stream P)) :=
  (minTime ss ss.length).bind fun m => if 0 > m then forAll (fun i ss => deref i (rebaseStream (m * -1)) ss) ss.length ss else some ss

/-- `DynamicStream::get_path`, src/mg/media/mp4dynamicinfo.h 614-624. -/
def pathOf {P : Type} (s : Stream P) (rate t : Int) : Option P :=
  match mapFind s.bitrates rate with
  | some (some paths) => getPath paths t
  | _ => none

end Verif.Presentation

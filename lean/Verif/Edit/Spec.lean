import Verif.Edit.Model
import Verif.Reader.Spec
/-
What joining and cutting files should do.
-/
namespace Verif.Edit.Spec
open Verif.Reader (Track Sample Reader)
open Verif.Reader.Spec (FileHolds Inside pres)

/-- What the muxer is given for one stream. -/
def ofStream (out : List Added) (i : Nat) : List Added := out.filter fun a => decide (a.stream = i)

/-- Samples that count: all, or with `discard` those presented from `start` on. -/
def kept (start : Nat) (discard : Bool) (t : Track) (xs : List Sample) : List Sample := xs.filter fun x => !(discard && decide (pres t x < start))

/-- Samples presented before `stop` (all, if it is 0). -/
def before (stop : Nat) (t : Track) (xs : List Sample) : List Sample := xs.filter fun x => decide (stop = 0 ∨ pres t x < stop)

/-- The bytes of a sample. -/
def bytesOf (f : File) (x : Sample) : List Nat := (f.bytes.drop x.offset).take x.size

/-- The file holds the samples `xss`, and the description of its streams fits. -/
structure Sound (f : File) (xss : List (List Sample)) : Prop where
  holds : FileHolds f.reader xss
  inside : Inside xss f.reader.mdatEnd
  size : f.reader.mdatEnd < 2 ^ 64 - 1
  streams : f.streams.length = f.reader.streams.length

/-- Every stream is stored in decoding order, no sample is presented before it is decoded. -/
def Decodable (xss : List (List Sample)) : Prop := ∀ xs ∈ xss, xs.Pairwise (fun x y => x.decoding ≤ y.decoding) ∧ ∀ x ∈ xs, x.decoding ≤ x.composition

/-- `xs` are the samples of stream `i` (a track `t`) that count when the file is added from `start` on: those from the position on to which `move(start)` goes. -/
def Part (f : File) (xss : List (List Sample)) (start : Nat) (discard : Bool) (i : Nat) (t : Track) (xs : List Sample) : Prop :=
  ∃ r p all, Reader.move f.reader start (Reader.defaultStream f.reader) = some r ∧ r.streams[i]? = some (t, p) ∧ xss[i]? = some all ∧ xs = kept start discard t (all.drop p)

/-- The first sample is presented first. -/
def FirstEarliest (t : Track) (xs : List Sample) : Prop := ∀ x, xs.head? = some x → ∀ y ∈ xs, pres t x ≤ pres t y

/-- The sample as it is given to the muxer when presentation times move by `k` and decoding times by `k'`. -/
def Moved (f : File) (i : Nat) (t : Track) (k k' : Int) (x : Sample) (a : Added) : Prop :=
  a.stream = i ∧ a.body = bytesOf f x ∧ a.sync = x.sync ∧ a.dur = x.duration ∧ (a.comp : Int) = pres t x + k ∧
    (a.dec : Int) = if t.hasCtts then (x.decoding + t.offset : Nat) + k' else pres t x + k

/-- `e` is where a part ends: the end of the sample that is presented last (`avg`: its duration if none is given). -/
def EndsAt (avg : Nat) (as : List Added) (e : Nat) : Prop := ∃ a ∈ as, (∀ b ∈ as, b.comp ≤ a.comp) ∧ e = a.comp + (if a.dur ≠ 0 then a.dur else avg)

/-- A file added behind parts that end at `ends` (for each stream where the presentation ends, and when its last sample is decoded): all streams move by the same amount, no stream begins before its part
before has ended, and one begins exactly there. Where decoding times are given, none lies before the last one of the part before. -/
def Follows (ends : List (Nat × Nat)) (f : File) (xss : List (List Sample)) (start stop : Nat) (discard : Bool) (out : List Added) : Prop :=
  ∃ k k' : Int,
    (∀ i t xs, i < ends.length → Part f xss start discard i t xs → List.Forall₂ (Moved f i t k k') (before stop t xs) (ofStream out i)) ∧
    (∀ (i : Nat) e, ends[i]? = some e → ∀ a ∈ ofStream out i, e.1 ≤ a.comp ∧ ∀ t p, f.reader.streams[i]? = some (t, p) → t.hasCtts = true → e.2 ≤ a.dec) ∧
    (∃ (i : Nat) (e : Nat × Nat) (t : Track) (xs : List Sample) (x : Sample), ends[i]? = some e ∧ Part f xss start discard i t xs ∧ xs.head? = some x ∧ (pres t x : Int) + k = e.1) ∧
    ∀ a ∈ out, a.stream < ends.length

/-- One file to be added: the file, the samples it holds, the range. -/
structure Input where
  file : File
  xss : List (List Sample)
  start : Nat
  stop : Nat

/-- Files one behind the other. -/
inductive Chain (discard : Bool) : List (Nat × Nat) → List Input → List (List Added) → Prop
  | nil {ends} : Chain discard ends [] []
  | cons {ends ends' inp ins out outs} : Follows ends inp.file inp.xss inp.start inp.stop discard out → ends'.length = ends.length →
      (∀ (i : Nat) e st, ends'[i]? = some e → inp.file.streams[i]? = some st → EndsAt st.avg (ofStream out i) e.1 ∧ ((ofStream out i).getLast?).map (·.dec) = some e.2) →
      Chain discard ends' ins outs → Chain discard ends (inp :: ins) (out :: outs)

/-- What is asked of a file with (at least) `n` streams: decoding order, in every stream the first sample that counts is presented first, and at least two different times of every stream are in the range. -/
structure Good (n : Nat) (discard : Bool) (inp : Input) : Prop where
  sound : Sound inp.file inp.xss
  decodable : Decodable inp.xss
  parts : ∀ i t xs, i < n → Part inp.file inp.xss inp.start discard i t xs →
    FirstEarliest t xs ∧ ∃ x ∈ before inp.stop t xs, ∃ y ∈ before inp.stop t xs, pres t x < pres t y

/-- A stream can be continued by another one: both video with the same sequence parameter set, the picture parameter set beginning with the old one, or both audio with the same parameters. -/
def Continues (a b : Stream) : Prop := a.video = b.video ∧ (a.video = true → a.sps = b.sps ∧ a.pps <+: b.pps) ∧ (a.video = false → a.audio = b.audio)

/-- The streams `mg` can use. -/
def usable (ss : List Stream) : List Stream := ss.filter (·.valid)

/-- A video stream has a sequence parameter set, an audio stream a sample rate. -/
def Real (s : Stream) : Prop := if s.video then s.sps ≠ [] else s.audio.2.1 ≠ 0

end Verif.Edit.Spec

import Verif.Reader.Spec
import Verif.Fragment.Spec
import Verif.Dash.Model
/-
What a media segment should hold, independent of how it is made: the bytes of the samples in the file they come from, and the times at which a player decodes and presents them.
-/
namespace Verif.Dash.Spec
open Verif.Reader (Sample)
open Verif.Fragment.Spec (Run Segment)

/-- The bytes of a sample in the file. -/
def bytesOf (file : List UInt8) (x : Sample) : List UInt8 := (file.drop x.offset).take x.size

/-- Decoding and presentation times of the samples of a run, for a player that begins to decode at `t` (ISO/IEC 14496-12, 8.8.8 and 8.8.12): each sample is decoded when the one
before it ends. -/
def play : (t : Int) → List Run → List (Int × Int)
  | _, [] => []
  | t, r :: rs => (t, t + r.offset.getD 0) :: play (t + (r.duration.getD 0 : Nat)) rs

/-- The samples of a segment after decryption, if it is encrypted with the cipher `E`. -/
def content (E : List UInt8 → List UInt8) (s : Segment) : List (List UInt8) :=
  match s.senc with
  | none => s.data
  | some es => List.zipWith (fun (e : Verif.Fragment.Spec.Enc) d => Cenc.Spec.decrypt E e.iv e.ranges d) es s.data

end Verif.Dash.Spec

namespace Verif.Dash.Spec
open Verif.Reader (Sample Track TrackBoxes Reader)
open Verif.Reader.Spec (GopStart Separates Synced FileHolds HasTimes Inside Timed pres)

/-- A source: the file with the bytes `file`, opened by the reader `r` (at any position), holds in track `id` the samples `xs`. The track was opened from the boxes `b` with the time table `es`; the samples
of all the tracks lie inside the media data, which is inside the file. -/
structure Source (file : List UInt8) (r : Reader) (id : Nat) (b : TrackBoxes) (t : Track) (es : List (Nat × Nat)) (xs : List Sample) : Prop where
  timed : Timed b t es
  times : HasTimes r
  small : r.mdatEnd < 2 ^ 64 - 1
  whole : r.mdatEnd ≤ file.length
  track : ∃ p, r.streams[id]? = some (t, p)
  samples : ∃ xss, FileHolds r xss ∧ Inside xss r.mdatEnd ∧ xss[id]? = some xs
  fit : ∀ x ∈ xs, pres t x < 2 ^ 64

/-- Where a segment is cut: anywhere in a track without composition offsets and sync table (audio); in a track with a sync table and without edit list (video) from the beginning of a closed group of
pictures to a time that separates the samples, such as the beginning of the next group or a time after the end. -/
def CutAt (b : TrackBoxes) (t : Track) (xs : List Sample) (start stop : Nat) : Prop :=
  (b.ctts = none ∧ b.stss = none) ∨ (b.elst = 0 ∧ (∃ ns, Synced b ns) ∧ GopStart t xs start ∧ Separates t stop xs)

/-- The first sample of a segment can be decoded before it is presented at the time asked for, and that time fits (`toAdded`: with a constant composition offset the decoding times are moved by it). -/
structure FirstFits (q : Request) (t : Track) (start : Nat) (w : List Sample) : Prop where
  time : q.base.getD start < 2 ^ 64 - 1
  order : ∀ x, w.head? = some x → (Verif.Reader.toAdded t x).decoding ≤ x.composition ∧ x.composition - (Verif.Reader.toAdded t x).decoding ≤ q.base.getD start

/-- A segment that can be made from `start` to `stop`: the track can be cut there, the numbers fit into their fields, the time of the first sample is as it should be, the segment is smaller than 2 GiB, and a
key comes with eight random bytes. (`ts` is the conversion to another time scale than 10 MHz.) -/
structure Good (ts : Nat → Nat) (q : Request) (b : TrackBoxes) (t : Track) (xs : List Sample) (start stop : Nat) : Prop where
  scale : q.timescale < 2 ^ 32
  trackId : q.trackId < 2 ^ 32
  sequence : q.sequence < 2 ^ 32
  conversion : q.timescale ≠ 10000000 → ∀ n, ts n < 2 ^ 64 - 1
  vector : ∀ x, q.enc = some x → x.2.length = 8
  begins : start < 2 ^ 64
  cut : CutAt b t xs start stop
  first : FirstFits q t start (Verif.Reader.Spec.window t start stop xs)
  size : ((Verif.Reader.Spec.window t start stop xs).map fun x => x.size + 28).sum + 233 < 2 ^ 31

/-- The segments between neighbouring times, with the requests `qs`. -/
def segments (ts : Nat → Nat) (E : List UInt8 → List UInt8) (file : List UInt8) (r : Reader) (id : Nat) : List Request → List Nat → List (Option (List UInt8))
  | q :: qs, a :: b :: rest => produce ts E q file r id a b :: segments ts E file r id qs (b :: rest)
  | _, _ => []

end Verif.Dash.Spec

import Verif.Render.Spec

/-
How a Smooth Streaming client reads a manifest (MS-SSTR).
-/
namespace Verif.Render.Spec
open Verif.Render.Xml
open Verif.Strings.Spec (decimal)

/-- What a client finds in a stream index: the template of the addresses, the announced numbers of chunks and quality levels, the quality
levels (bitrate, codec data) and the chunks (start, duration). -/
structure Smooth where
  url : Str
  announced : Nat
  announcedLevels : Nat
  levels : List (Str × Str)
  chunks : List (Nat × Nat)
deriving DecidableEq

/-- The chunks: `@t` is the start, by default the end of the chunk before it (0 for the first), `@d` the duration. -/
def chunks : Nat → List Elem → Option (List (Nat × Nat))
  | _, [] => some []
  | t, e :: es => (number e (t! "t") (some t)).bind fun t => (number e (t! "d") none).bind fun d => (chunks (t + d) es).map ((t, d) :: ·)

/-- A quality level. -/
def level (e : Elem) : Option (Str × Str) :=
  (attr e (t! "Bitrate")).bind fun b => (attr e (t! "CodecPrivateData")).map fun d => (b, d)

/-- A stream index. -/
def readIndex (e : Elem) : Option Smooth :=
  (attr e (t! "Url")).bind fun u => (number e (t! "Chunks") none).bind fun n => (number e (t! "QualityLevels") none).bind fun q =>
    (all ((e.children.filter fun c => c.name = t! "QualityLevel").map level)).bind fun ls =>
      (chunks 0 (e.children.filter fun c => c.name = t! "c")).map fun cs => ⟨u, n, q, ls, cs⟩

/-- The duration and the stream indexes of a manifest. -/
def readSmooth (text : Str) : Option (Nat × List Smooth) :=
  match parse text with
  | some [m] =>
    if m.name = t! "SmoothStreamingMedia" then
      (number m (t! "Duration") none).bind fun d =>
        (all ((m.children.filter fun e => e.name = t! "StreamIndex").map readIndex)).map fun s => (d, s)
    else none
  | _ => none

/-- The address of a chunk: the bitrate and the start put in the places marked in the template. -/
inductive ChunkAddress (bitrate start : Str) : Str → Str → Prop
  | mk {template a : Str} (mid : Str) : Verif.Strings.Spec.Replaced (t! "{bitrate}") bitrate template mid →
      Verif.Strings.Spec.Replaced (t! "{start time}") start mid a → ChunkAddress bitrate start template a

end Verif.Render.Spec

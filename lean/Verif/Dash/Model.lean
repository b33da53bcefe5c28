import Verif.Reader.Model
import Verif.Fragment.Model
/-
Model of the making of a media segment of a presentation out of one file, or of two files at a join (/repo/src/mg/media/mp4fragmented.h): `add_frames_to_m4f`, `produce_m4f_chunk` and
`produce_m4f_chunk_cross`, the code behind `mg -k:dash` and `mg -k:ssf`. It joins the model of the reader (module Reader) and the model of the fragment writer (module Fragment), with the bytes of the
samples.

`none` stands for an exception, an access outside a table, or a file that is too short (release builds then use what is in the buffer). The list of code points of the other configuration (`_avcn`)
is not written (see module Fragment).
-/
namespace Verif.Dash
open Verif.Reader (Track Sample Reader next move remaining toAdded baseTime)
open Verif.Fragment (Frag W)

/-- `set_position(offset)` and `read_bytes(size)`, mp4fragmented.h 615-618, mp4parse.h 508-524. -/
def readBytes (file : List UInt8) (offset size : Nat) : Option (List UInt8) :=
  if offset + size ≤ file.length then some ((file.drop offset).take size) else none

/-- What is done with a sample of the track that is not before `start`, mp4fragmented.h 646-672: it is added, and if the fragment has no base media decode time
(`has_baseMediaDecodeTime`, 277: it is not 2^64 - 1) it is set. The times handed over are those of `toAdded` (619-627). -/
def addOne (ts : Nat → Nat) (E : List UInt8 → List UInt8) (start : Nat) (base : Option Nat) (f : Frag) (body : List UInt8) (a : Sample) : Frag :=
  let f := f.addSample ts E body a.composition a.decoding a.duration
  if f.base = 2 ^ 64 - 1 then f.setBase ts (baseTime start base a) else f

/-- The loop of `add_frames_to_m4f`, mp4fragmented.h 608-675, over at most `fuel` samples. -/
def addLoop (ts : Nat → Nat) (E : List UInt8 → List UInt8) (file : List UInt8) (t : Track) (id start stop : Nat) (base : Option Nat) :
    (fuel : Nat) → Reader → Frag → Option Frag
  | 0, _, f => some f
  | fuel + 1, r, f =>
    match next r with
    | none => none
    | some (false, _, _) => some f
    | some (true, none, _) => none
    | some (true, some (s, x), r) =>
      if s ≠ id then addLoop ts E file t id start stop base fuel r f
      else if (x.composition + t.offset) % 2 ^ 64 ≥ stop then some f
      else
        match readBytes file x.offset x.size with
        | none => none
        | some body =>
          if (x.composition + t.offset) % 2 ^ 64 < start then addLoop ts E file t id start stop base fuel r f
          else addLoop ts E file t id start stop base fuel r (addOne ts E start base f body (toAdded t x))

/-- `add_frames_to_m4f`, mp4fragmented.h 571-683. The loop runs while samples are delivered (see `remaining`). -/
def addFrames (ts : Nat → Nat) (E : List UInt8 → List UInt8) (file : List UInt8) (r : Reader) (id start stop : Nat) (base : Option Nat) (f : Frag) : Option Frag :=
  match r.streams[id]? with
  | none => none
  | some (t, _) =>
    match move r start id with
    | none => none
    | some r => addLoop ts E file t id start stop base (remaining r.streams + 1) r f

/-- What does not depend on the files: time scale of the segment, key (`senc_flags` and the random bytes), track number, sequence number, kind (`AVCNBOX`), base media decode time, and the
uninitialised words of the boxes (see module Fragment). -/
structure Request where
  timescale : Nat
  enc : Option (Bool × List UInt8)
  trackId : Nat
  sequence : Nat
  video : Bool
  base : Option Nat
  gs : Nat
  gt : Nat

/-- The fragment before samples are added, mp4fragmented.h 813-823. -/
def Request.new (q : Request) : Frag :=
  let f := (Frag.new.setTimescale q.timescale).start q.trackId q.sequence (if q.video then 0xa600000 else 0)
  match q.enc with
  | none => f
  | some (sub, random) => f.setEncryption sub random

/-- `produce_m4f_chunk`, mp4fragmented.h 796-849, on an empty output file. -/
def produce (ts : Nat → Nat) (E : List UInt8 → List UInt8) (q : Request) (file : List UInt8) (r : Reader) (id start stop : Nat) : Option (List UInt8) :=
  (addFrames ts E file r id start stop q.base q.new).map fun f => (f.finish q.gs q.gt ⟨[], 0, []⟩).bytes

/-- `produce_m4f_chunk_cross`, mp4fragmented.h 890-961, on an empty output file. -/
def produceCross (ts : Nat → Nat) (E : List UInt8 → List UInt8) (q : Request) (file : List UInt8) (r : Reader) (file₂ : List UInt8) (r₂ : Reader) (id start stop start₂ stop₂ : Nat) :
    Option (List UInt8) :=
  (addFrames ts E file r id start stop q.base q.new).bind fun f =>
    (addFrames ts E file₂ r₂ id start₂ stop₂ q.base f).map fun f => (f.finish q.gs q.gt ⟨[], 0, []⟩).bytes

end Verif.Dash

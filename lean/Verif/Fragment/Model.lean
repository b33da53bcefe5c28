import Verif.Cenc.Model
import Verif.Cenc.Spec
/-
Model of the media fragment writer `CMP4Fragment` (/repo/src/mg/media/mp4fragmented.h 75-566), in the configuration of
/repo/src/mgmedia.h 34 (FRAGMENTEDSTYPTRUE, CENC, HAVE_LIBGYPAES).

The box writer `CMP4W` (mp4write.h 73-194) is used on a file: C08 and C52 show that the buffering stream under it behaves as one,
so its state is the bytes written, the position and the positions of the open boxes. The box classes are generated
from mp4/mp4.fl, mp4/mp4_fragments.fl and mp4/cenc.fl; their `put` functions write the fields in the order of those files.
-/
namespace Verif.Fragment
open Verif.Cenc.Spec (be)

/-- A file being written by `CMP4W`, mp4write.h 73-97. -/
structure W where
  bytes : List UInt8
  pos : Nat
  parents : List Nat

/-- `write_bytes` and (of the big-endian bytes) `write_uint` / `putbits`, mp4write.h 151-163: written over what is there. -/
def W.put (w : W) (b : List UInt8) : W :=
  { w with bytes := w.bytes.take w.pos ++ b ++ w.bytes.drop (w.pos + b.length), pos := w.pos + b.length }

/-- `set_position`, mp4write.h 189-192. -/
def W.seek (w : W) (p : Nat) : W := { w with pos := p }

/-- `open_box`, mp4write.h 124-132. -/
def W.openBox (w : W) (type : Nat) : W :=
  let bp := w.pos
  let w := (w.put (be 4 0xFFFFFFFF)).put (be 4 type)
  { w with parents := bp :: w.parents }

/-- `close_box`, mp4write.h 134-149 (the assertion on the type left out; an empty stack is undefined behaviour). -/
def W.closeBox (w : W) : W :=
  match w.parents with
  | [] => w
  | start :: ps =>
    let e := w.pos
    let size := e - start
    let w := ((w.seek start).put (be 4 size)).seek e
    { w with parents := ps }

/-- `write_child_box`, mp4write.h 103-122; `body` is what the box's `put` writes. -/
def W.child (w : W) (type : Nat) (body : List UInt8) : W :=
  let init := w.pos
  let w := ((w.put (be 4 0xFFFFFFFF)).put (be 4 type)).put body
  let e := w.pos
  let size := e - init
  ((w.seek init).put (be 4 size)).seek e

/-- `BOX(a,b,c,d)`, mp4/mp4.fl 12. -/
def fourcc (a b c d : Char) : Nat := a.toNat * 2 ^ 24 + b.toNat * 2 ^ 16 + c.toNat * 2 ^ 8 + d.toNat

/-- What `_trun.add` stores for a sample, mp4/mp4_fragments.fl 104-114, 140-155 (all `unsigned int`; the flags of a sample are stored but not
written, because flag 0x400 is never set). -/
structure Item where
  duration : Nat
  size : Nat
  offset : Nat
deriving DecidableEq, Repr

/-- The members of `CMP4Fragment`, mp4fragmented.h 75-109. `_avcn` is only written in the other configuration. -/
structure Frag where
  sequence : Nat
  trackId : Nat
  /-- `_baseMediaDecodeTime`, 2^64 - 1 when not set -/
  base : Nat
  timescale : Nat
  trunFlags : Nat
  firstFlags : Nat
  items : List Item
  /-- `_trun._duration` -/
  duration : Nat
  mdat : List UInt8
  /-- flags of `_senc` (bit 2) and `_iv`, `_senc._samples`, when `_encrypted` -/
  enc : Option (Bool × Cenc.State)

/-- Constructor, mp4fragmented.h 196-206; members without initialiser are set by `start`. -/
def Frag.new : Frag := ⟨0, 0, 2 ^ 64 - 1, 10000000, 0, 0, [], 0, [], none⟩

/-- `TIMESCALE(t, b)`, mp4fragmented.h 62. `CMP4Stream::time_scale` (mp4write.h 261-267, double arithmetic) is the parameter `ts`. -/
def Frag.scale (ts : Nat → Nat) (f : Frag) (t : Nat) : Nat := if f.timescale ≠ 10000000 then ts t else t

/-- `set_timescale`, mp4fragmented.h 279. -/
def Frag.setTimescale (f : Frag) (t : Nat) : Frag := { f with timescale := t }

/-- `set_baseMediaDecodeTime`, mp4fragmented.h 262-265. -/
def Frag.setBase (ts : Nat → Nat) (f : Frag) (t : Nat) : Frag := { f with base := f.scale ts t % 2 ^ 64 }

/-- `set_encryption`, mp4fragmented.h 282-299; `random` are the eight bytes of `fillrand`. -/
def Frag.setEncryption (f : Frag) (sub : Bool) (random : List UInt8) : Frag := { f with enc := some (sub, Cenc.start random) }

/-- `start`, mp4fragmented.h 302-333. -/
def Frag.start (f : Frag) (trackId fragmentId firstFlags : Nat) : Frag :=
  { f with
    sequence := fragmentId, trackId, firstFlags
    trunFlags := if 0 < firstFlags then 0x000100 ||| 0x000004 ||| 0x000200 ||| 0x000800 ||| 0x000001 else 0x000100 ||| 0x000200 ||| 0x000001 }

/-- `add_sample`, mp4fragmented.h 336-411, with the block cipher `E` of the key. -/
def Frag.addSample (ts : Nat → Nat) (E : List UInt8 → List UInt8) (f : Frag) (body : List UInt8) (composition decoding duration : Nat) : Frag :=
  let diff := f.scale ts ((composition + 2 ^ 64 - decoding) % 2 ^ 64)
  let item : Item := ⟨f.scale ts duration % 2 ^ 32, body.length % 2 ^ 32, diff % 2 ^ 32⟩
  let f := { f with items := f.items ++ [item], duration := (f.duration + item.duration) % 2 ^ 64 }
  match f.enc with
  | none => { f with mdat := f.mdat ++ body }
  | some (sub, s) =>
    let r := Cenc.addSample E sub s body
    { f with enc := some (sub, r.2), mdat := f.mdat ++ r.1 }

/-- `FullBox::put`, mp4/mp4.fl 173-187. -/
def full (version flags : Nat) : List UInt8 := be 1 version ++ be 3 flags

/-- `FileTypeBox` of mp4fragmented.h 418-428 (mp4/mp4.fl 787-823). -/
def stypBody : List UInt8 :=
  be 4 (fourcc 'i' 's' 'o' 'm') ++ be 4 0 ++ be 4 (fourcc 'i' 's' 'o' '8') ++ be 4 (fourcc 'm' 'p' '4' '1') ++
    be 4 (fourcc 'd' 'a' 's' 'h') ++ be 4 (fourcc 'a' 'v' 'c' '1') ++ be 4 (fourcc 'c' 'm' 'f' 's')

/-- `SegmentIndexBox` of mp4fragmented.h 433-456 (mp4/mp4.fl 862-895), version 0; `g` is the 32 bit word of reference type and size, which is
uninitialised at this point. The last word is starts_with_SAP = 1 (1 bit), SAP_type = 1 (3 bits), SAP_delta_time = 0 (28 bits). -/
def sidxBody (f : Frag) (g : Nat) : List UInt8 :=
  full 0 0 ++ be 4 f.trackId ++ be 4 f.timescale ++ be 4 ((f.items.headD ⟨0, 0, 0⟩).offset + f.base) ++ be 4 0 ++
    be 2 0 ++ be 2 1 ++ be 4 g ++ be 4 f.duration ++ be 4 (1 * 2 ^ 31 + 1 * 2 ^ 28)

/-- `trun_body::put`, mp4/mp4_fragments.fl 104-114. -/
def itemBody (flags : Nat) (i : Item) : List UInt8 :=
  (if flags &&& 0x000100 ≠ 0 then be 4 i.duration else []) ++ (if flags &&& 0x000200 ≠ 0 then be 4 i.size else []) ++
    (if flags &&& 0x000800 ≠ 0 then be 4 i.offset else [])

/-- `TrackRunBox::put`, mp4/mp4_fragments.fl 116-198; `g` is `data_offset`, uninitialised when the box is written. -/
def trunBody (f : Frag) (g : Nat) : List UInt8 :=
  full 1 f.trunFlags ++ be 4 f.items.length ++ (if f.trunFlags &&& 0x000001 ≠ 0 then be 4 g else []) ++
    (if f.trunFlags &&& 0x000004 ≠ 0 then be 4 f.firstFlags else []) ++ f.items.flatMap (itemBody f.trunFlags)

/-- `SingleEncryptionBox::put` with flags 2 and one sub-sample, mp4/cenc.fl 128-184. -/
def sencEntry (e : Cenc.Entry) : List UInt8 := e.iv ++ be 2 1 ++ be 2 e.clear ++ be 4 e.prot

/-- `SampleEncryptionBox::put`, mp4/cenc.fl 187-222, flags set to 2 in mp4fragmented.h 494. -/
def sencBody (es : List Cenc.Entry) : List UInt8 := full 0 2 ++ be 4 es.length ++ es.flatMap sencEntry

/-- `SampleAuxiliaryInformationSizesBox::put`, mp4/cenc.fl 227-251. -/
def saizBody (count : Nat) : List UInt8 := full 0 0 ++ be 1 16 ++ be 4 count

/-- `SampleAuxiliaryInformationOffsetsBox::put`, mp4/cenc.fl 255-284, version 0, one entry. -/
def saioBody (offset : Nat) : List UInt8 := full 0 0 ++ be 4 1 ++ be 4 offset

/-- The boxes up to the sample table of the fragment, mp4fragmented.h 413-485: (file, position of the moof, position of the data offset,
position of the referenced size). -/
def Frag.endHead (f : Frag) (gs gt : Nat) (w : W) : W × Nat × Nat × Nat :=
  let w := w.child (fourcc 's' 't' 'y' 'p') stypBody
  let refPos := w.pos + (12 + 16 + 4)
  let w := w.child (fourcc 's' 'i' 'd' 'x') (sidxBody f gs)
  let moofPos := w.pos
  let w := w.openBox (fourcc 'm' 'o' 'o' 'f')
  let w := w.child (fourcc 'm' 'f' 'h' 'd') (full 0 0 ++ be 4 f.sequence)
  let w := w.openBox (fourcc 't' 'r' 'a' 'f')
  let w := w.child (fourcc 't' 'f' 'h' 'd') (full 0 0 ++ be 4 f.trackId)
  let w := if f.base ≠ 2 ^ 64 - 1 then w.child (fourcc 't' 'f' 'd' 't') (full 1 0 ++ be 4 (f.base / 2 ^ 32) ++ be 4 f.base) else w
  let dataOffsetPos := w.pos + (12 + 4)
  let w := w.child (fourcc 't' 'r' 'u' 'n') (trunBody f gt)
  (w, moofPos, dataOffsetPos, refPos)

/-- The encryption boxes, mp4fragmented.h 489-527. -/
def Frag.endEnc (f : Frag) (moofPos : Nat) (w : W) : W :=
  match f.enc with
  | none => w
  | some (_, s) =>
    let offset := w.pos + 16 - moofPos + 17 + 20
    let w := w.child (fourcc 's' 'a' 'i' 'z') (saizBody s.entries.length)
    let w := w.child (fourcc 's' 'a' 'i' 'o') (saioBody offset)
    w.child (fourcc 's' 'e' 'n' 'c') (sencBody s.entries)

/-- `end`, mp4fragmented.h 413-566; `gs` and `gt` are the uninitialised words that are overwritten at the end. -/
def Frag.finish (f : Frag) (gs gt : Nat) (w : W) : W :=
  let (w, moofPos, dataOffsetPos, refPos) := f.endHead gs gt w
  let w := f.endEnc moofPos w
  let w := w.closeBox
  let w := w.closeBox
  let w := (w.put (be 4 (f.mdat.length + 8))).put (be 4 (fourcc 'm' 'd' 'a' 't'))
  let dataOffset := w.pos
  let w := w.put f.mdat
  let endPos := w.pos
  let w := if f.trunFlags &&& 0x000001 ≠ 0 then ((w.seek dataOffsetPos).put (be 4 (dataOffset - moofPos))).seek endPos else w
  ((w.seek refPos).put (be 4 (endPos - moofPos))).seek endPos

/-- A sample as given to `add_sample`. -/
structure Sample where
  body : List UInt8
  composition : Nat
  decoding : Nat
  duration : Nat

/-- `add_sample` for a list of samples. -/
def Frag.addAll (ts : Nat → Nat) (E : List UInt8 → List UInt8) (f : Frag) : List Sample → Frag
  | [] => f
  | s :: ss => (f.addSample ts E s.body s.composition s.decoding s.duration).addAll ts E ss

/-- A fragment as `produce_m4f` makes it, mp4fragmented.h 795-848: `set_timescale`, `start`, `set_encryption` when there is a key, the samples, and
`set_baseMediaDecodeTime` when a time is given. (The program sets the time after the first sample instead of after the last; `add_sample` does not look at it.) -/
def Frag.make (ts : Nat → Nat) (E : List UInt8 → List UInt8) (timescale : Nat) (base : Option Nat) (enc : Option (Bool × List UInt8))
    (trackId fragmentId firstFlags : Nat) (samples : List Sample) : Frag :=
  let f := (Frag.new.setTimescale timescale).start trackId fragmentId firstFlags
  let f := match enc with
    | none => f
    | some (sub, random) => f.setEncryption sub random
  let f := f.addAll ts E samples
  match base with
  | none => f
  | some t => f.setBase ts t

end Verif.Fragment

import Verif.Fragment.Model
import Verif.Tables.Model
/-
Model of the writing of the header of a movie file: `MP4Write::write_ftyp`, `write_moov` and all that they write for each stream (/repo/src/mg/media/mp4write.h), the putting together of the file by
`MP4Mux::end` and `flush_all` (/repo/src/mg/media/mp4mux.h 134-161, 364-420), and the initialization segment of a fragmented presentation, `produce_m4f_initialization`
(/repo/src/mg/media/mp4fragmented.h 691-794). Configuration of /repo/src/mgmedia.h 34 (FRAGMENTEDSTYPTRUE, CENC).

The box writer is the one of module Fragment. The box classes are generated from mp4/mp4.fl, mp4/mp4_fragments.fl and mp4/cenc.fl; their `put` functions write the fields in the order of those files.
Streams of time codes (`CMP4LTCStream`, 1489-1598) are left out. The clock (`MP4NOW`, mp4write.h 56) is the parameter `now`, the same at every call.
-/
namespace Verif.Movie
open Verif.Cenc.Spec (be)
open Verif.Fragment (W fourcc full)
open Verif.Tables (WStream stscEntries stszWords stcoWords stssWords sttsEntries cttsEntries u32 sub64)

/-- The sample entry of a stream: `CMP4VisualStream` with its `CMP4VisualEntry` (mp4write.h 1348-1429, mp4parse.h 1698-1731), `config` being the body of the avcC box and `name` the 31 bytes of the name
of the compressor, which are never set; or `CMP4AudioStream` with its `CMP4AudioEntry` (mp4write.h 1431-1487, mp4parse.h 1822-1839), `config` being the esds box. -/
inductive Kind where
  | visual (width height : Nat) (config name : List UInt8)
  | audio (rate channels : Nat) (config : List UInt8)
deriving DecidableEq, Repr

/-- Video or not: `CMP4VisualStream` or `CMP4AudioStream`, mp4write.h 1348-1487. -/
def Kind.visual? : Kind → Bool
  | .visual .. => true
  | .audio .. => false

/-- `CMP4Stream`, mp4write.h 196-249, with the tables' part `w` (module Tables). `kid` is `_cenc_id` if `_has_cenc_id`. -/
structure MStream where
  w : WStream
  kind : Kind
  id : Nat
  scale : Nat := 1000
  mvhdScale : Nat := 1000
  allowEmpty : Bool := false
  lang : Char × Char × Char := ('u', 'n', 'd')
  streamOffset : Nat := 0
  ctts : Nat := 0
  kid : Option (List UInt8) := none

/-- `get_duration`, mp4write.h 1018-1028. -/
def MStream.duration (s : MStream) : Nat :=
  match s.w.samples.head?, s.w.samples.getLast? with
  | some a, some z => sub64 z.composition a.composition
  | _, _ => if s.allowEmpty then 0 else 2 ^ 64 - 1

/-- The 32 bit words of a table. -/
def words (ws : List Nat) : List UInt8 := ws.flatMap (be 4)

/-- `pin_position`, a place for the count, the entries, `pop_pin`, the count, `un_pin` (mp4write.h 165-187, 430-491, 505-551, 580-653). -/
def table (w : W) (n : Nat) (entries : List Nat) : W :=
  let pinned := w.pos
  let w := entries.foldl (fun w x => w.put (be 4 x)) (w.put (be 4 0xFFFFFFFF))
  let last := w.pos
  ((w.seek pinned).put (be 4 n)).seek last

/-- The matrix of movie and track header, mp4/mp4.fl 212-221, 281-290. -/
def matrix : List UInt8 := be 4 0x00010000 ++ be 4 0 ++ be 4 0 ++ be 4 0 ++ be 4 0x00010000 ++ be 4 0 ++ be 4 0 ++ be 4 0 ++ be 4 0x40000000

/-- `FileTypeBox`, mp4/mp4.fl 787-823. -/
def ftypBody (major minor : Nat) (brands : List Nat) : List UInt8 := be 4 major ++ be 4 minor ++ words brands

/-- `MovieHeaderBox`, mp4/mp4.fl 196-276, set by `write_moov`, mp4write.h 2221-2235. -/
def mvhdBody (version now scale duration next : Nat) : List UInt8 :=
  full version 0 ++ (if version = 1 then be 8 now ++ be 8 now ++ be 4 scale ++ be 8 duration else be 4 now ++ be 4 now ++ be 4 scale ++ be 4 duration) ++
    be 4 0x00010000 ++ be 2 0x0100 ++ be 2 0 ++ be 4 0 ++ be 4 0 ++ matrix ++ be 4 0 ++ be 4 0 ++ be 4 0 ++ be 4 0 ++ be 4 0 ++ be 4 0 ++ be 4 next

/-- `TrackHeaderBox`, mp4/mp4.fl 278-343, version 0, set by `write_stream`, mp4write.h 1091-1103, and `fill_track_header`, 1414-1419, 1477-1480. -/
def tkhdBody (now id duration volume width height : Nat) : List UInt8 :=
  full 0 1 ++ be 4 now ++ be 4 now ++ be 4 id ++ be 4 0 ++ be 4 duration ++ be 4 0 ++ be 4 0 ++ be 2 0 ++ be 2 0 ++ be 2 volume ++ be 2 0 ++ matrix ++
    be 2 width ++ be 2 0 ++ be 2 height ++ be 2 0

/-- `set_lang`, mp4/mp4.fl 399: the low five bits of the character less 0x60. -/
def langBits (c : Char) : Nat := (c.toNat + 2 ^ 32 - 0x60) % 32

/-- `MediaHeaderBox`, mp4/mp4.fl 346-410, version 0, set by `write_stream` and `fill_media_header`, mp4write.h 315-320, 1111-1117. -/
def mdhdBody (now scale duration : Nat) (lang : Char × Char × Char) : List UInt8 :=
  full 0 0 ++ be 4 now ++ be 4 now ++ be 4 scale ++ be 4 duration ++ be 2 (langBits lang.1 * 2 ^ 10 + langBits lang.2.1 * 2 ^ 5 + langBits lang.2.2) ++ be 2 0

/-- The name in the handler box, mp4/mp4.fl 449-477. -/
def handlerName : List UInt8 := "FOUNDATION MEDIA HANDLER".toList.map (fun c => UInt8.ofNat c.toNat) ++ [0]

/-- `HandlerBox`, mp4/mp4.fl 412-484, set by `fill_media_handler`, mp4write.h 323-329. -/
def hdlrBody (type : Nat) : List UInt8 := full 0 0 ++ be 4 0 ++ be 4 type ++ be 4 0 ++ be 4 0 ++ be 4 0 ++ handlerName

/-- `VisualSampleEntry`, mp4/mp4.fl 516-553, with the values of mp4parse.h 1706-1719 (`size` of the name 0, `depth` 0). -/
def visualBody (width height : Nat) (name : List UInt8) : List UInt8 :=
  be 6 0 ++ be 2 1 ++ be 2 0 ++ be 2 0 ++ be 4 0 ++ be 4 0 ++ be 4 0 ++ be 2 width ++ be 2 height ++ be 4 72 ++ be 4 72 ++ be 4 0 ++ be 2 1 ++ be 1 0 ++ name ++ be 2 0 ++ be 2 0xFFFF

/-- `AudioSampleEntry`, mp4/mp4.fl 664-682, with the values of mp4parse.h 1827-1830. -/
def audioBody (rate channels : Nat) : List UInt8 :=
  be 6 0 ++ be 2 1 ++ be 4 0 ++ be 4 0 ++ be 2 channels ++ be 2 16 ++ be 2 0 ++ be 2 0 ++ be 4 (rate * 2 ^ 16)

/-- `write_protected_sinf`, mp4write.h 347-388 (boxes of mp4/cenc.fl 50-126). -/
def writeSinf (w : W) (format : Nat) (kid : Option (List UInt8)) : W :=
  match kid with
  | none => w
  | some kid =>
    let w := w.openBox (fourcc 's' 'i' 'n' 'f')
    let w := ((w.openBox (fourcc 'f' 'r' 'm' 'a')).put (be 4 format)).closeBox
    let w := ((w.openBox (fourcc 's' 'c' 'h' 'm')).put (full 0 0 ++ be 4 (fourcc 'c' 'e' 'n' 'c') ++ be 4 0x10000)).closeBox
    let w := w.openBox (fourcc 's' 'c' 'h' 'i')
    let w := ((w.openBox (fourcc 't' 'e' 'n' 'c')).put (full 0 0 ++ be 1 0 ++ be 1 0 ++ be 1 1 ++ be 1 8 ++ kid)).closeBox
    w.closeBox.closeBox

/-- `write_stream_entry` of the two kinds of streams, mp4write.h 1357-1407, 1439-1470. -/
def writeEntry (w : W) (kind : Kind) (kid : Option (List UInt8)) : W :=
  match kind with
  | .visual width height config name =>
    let w := w.openBox (if kid.isSome then fourcc 'e' 'n' 'c' 'v' else fourcc 'a' 'v' 'c' '1')
    let w := writeSinf (w.put (visualBody width height name)) (fourcc 'a' 'v' 'c' '1') kid
    let w := ((w.openBox (fourcc 'a' 'v' 'c' 'C')).put config).closeBox
    w.closeBox
  | .audio rate channels config =>
    let w := w.openBox (if kid.isSome then fourcc 'e' 'n' 'c' 'a' else fourcc 'm' 'p' '4' 'a')
    let w := writeSinf ((w.put (audioBody rate channels)).put config) (fourcc 'm' 'p' '4' 'a') kid
    w.closeBox

/-- `write_stsd`, mp4write.h 392-419: for an encrypted stream the entry without encryption comes second. -/
def writeStsd (w : W) (s : MStream) : W :=
  let w := (w.openBox (fourcc 's' 't' 's' 'd')).put (full 0 0 ++ be 4 (if s.kid.isSome then 2 else 1))
  let w := writeEntry w s.kind s.kid
  let w := if s.kid.isSome then writeEntry w s.kind none else w
  w.closeBox

/-- `write_stts`, mp4write.h 421-493. `ts` and `hn` are `time_scale` and `get_hnano`, floating point in the code. -/
def writeStts (ts hn : Nat → Nat → Nat) (w : W) (s : MStream) : W :=
  let es := sttsEntries (ts s.scale) (hn s.scale) s.allowEmpty (s.w.samples.map (·.decoding))
  (table ((w.openBox (fourcc 's' 't' 't' 's')).put (full 0 0)) es.length (es.flatMap fun e => [e.1, e.2])).closeBox

/-- `write_ctts`, mp4write.h 495-556. -/
def writeCtts (ts : Nat → Nat → Nat) (w : W) (s : MStream) : W :=
  match cttsEntries (ts s.scale) s.ctts s.w with
  | none => w
  | some es => (table ((w.openBox (fourcc 'c' 't' 't' 's')).put (full 0 0)) es.length (es.flatMap fun e => [e.1, e.2])).closeBox

/-- `write_stsc`, mp4write.h 558-656; `none` = exception. -/
def writeStsc (w : W) (s : MStream) : Option W :=
  match stscEntries s.w.chunks s.allowEmpty with
  | none => none
  | some es => some (table ((w.openBox (fourcc 's' 't' 's' 'c')).put (full 0 0)) es.length (es.flatMap fun e => [e.1, e.2, 1])).closeBox

/-- `write_stsz`, mp4write.h 657-685. -/
def writeStsz (w : W) (s : MStream) : W := (((w.openBox (fourcc 's' 't' 's' 'z')).put (full 0 0)).put (words (stszWords s.w))).closeBox

/-- `write_stco_body`, mp4write.h 723-732, at the position remembered by `write_stco`. -/
def writeStcoBody (w : W) (s : MStream) (position offset : Nat) : W :=
  (s.w.chunks.foldl (fun w c => w.put (be 4 (c.position + offset))) (if w.pos ≠ position then w.seek position else w))

/-- `write_stco`, mp4write.h 736-751: with the position that it remembers. -/
def writeStco (w : W) (s : MStream) : W × Nat :=
  let w := ((w.openBox (fourcc 's' 't' 'c' 'o')).put (full 0 0)).put (be 4 s.w.chunks.length)
  let p := w.pos
  ((writeStcoBody w s p 0).closeBox, p)

/-- `write_stss`, mp4write.h 754-773. -/
def writeStss (w : W) (s : MStream) : W :=
  match stssWords s.w with
  | none => w
  | some ws => (((w.openBox (fourcc 's' 't' 's' 's')).put (full 0 0)).put (words ws)).closeBox

/-- `write_stbl`, mp4write.h 776-789. -/
def writeStbl (ts hn : Nat → Nat → Nat) (w : W) (s : MStream) : Option (W × Nat) :=
  let w := writeStsd (w.openBox (fourcc 's' 't' 'b' 'l')) s
  let w := writeCtts ts (writeStts ts hn w s) s
  match writeStsc w s with
  | none => none
  | some w =>
    let (w, p) := writeStco (writeStsz w s) s
    some ((writeStss w s).closeBox, p)

/-- `write_edts`, mp4write.h 688-716, with `EditListBox`, mp4/mp4.fl 695-785, version 0. -/
def writeEdts (ts : Nat → Nat → Nat) (w : W) (s : MStream) : W :=
  if s.streamOffset = 0 then w
  else
    let w := (w.openBox (fourcc 'e' 'd' 't' 's')).openBox (fourcc 'e' 'l' 's' 't')
    let w := w.put (full 0 0 ++ be 4 2 ++ (be 4 (ts s.mvhdScale s.streamOffset) ++ be 4 0xFFFFFFFF ++ be 2 1 ++ be 2 0) ++ (be 4 (ts s.mvhdScale s.duration) ++ be 4 0 ++ be 2 1 ++ be 2 0))
    w.closeBox.closeBox

/-- `write_media_header`, mp4write.h 331-343 (`VideoMediaHeaderBox`, `SoundMediaHeaderBox`, mp4/mp4.fl 825-860). -/
def writeMediaHeader (w : W) : Kind → W
  | .visual .. => w.child (fourcc 'v' 'm' 'h' 'd') (full 0 0 ++ be 2 0 ++ be 2 0 ++ be 2 0 ++ be 2 0)
  | .audio .. => w.child (fourcc 's' 'm' 'h' 'd') (full 0 0 ++ be 2 0 ++ be 2 0)

/-- `handler_type`, mp4write.h 323-329. -/
def Kind.handler : Kind → Nat
  | .visual .. => fourcc 'v' 'i' 'd' 'e'
  | .audio .. => fourcc 's' 'o' 'u' 'n'

/-- Volume, width and height, mp4write.h 1414-1419, 1477-1480. -/
def Kind.header : Kind → Nat × Nat × Nat
  | .visual width height _ _ => (0, width, height)
  | .audio .. => (0x0100, 0, 0)

/-- `write_stream`, mp4write.h 1086-1148. -/
def writeStream (ts hn : Nat → Nat → Nat) (now : Nat) (w : W) (s : MStream) : Option (W × Nat) :=
  let w := w.openBox (fourcc 't' 'r' 'a' 'k')
  let w := w.child (fourcc 't' 'k' 'h' 'd') (tkhdBody now (s.id + 1) (ts s.mvhdScale s.duration + ts s.mvhdScale s.streamOffset) s.kind.header.1 s.kind.header.2.1 s.kind.header.2.2)
  let w := (writeEdts ts w s).openBox (fourcc 'm' 'd' 'i' 'a')
  let w := w.child (fourcc 'm' 'd' 'h' 'd') (mdhdBody now s.scale (ts s.scale s.duration) s.lang)
  let w := w.child (fourcc 'h' 'd' 'l' 'r') (hdlrBody s.kind.handler)
  let w := writeMediaHeader (w.openBox (fourcc 'm' 'i' 'n' 'f')) s.kind
  let w := (w.openBox (fourcc 'd' 'i' 'n' 'f')).openBox (fourcc 'd' 'r' 'e' 'f')
  let w := (w.put (full 0 0 ++ be 4 1)).child (fourcc 'u' 'r' 'l' ' ') (full 0 1)
  match writeStbl ts hn w.closeBox.closeBox s with
  | none => none
  | some (w, p) => some (w.closeBox.closeBox.closeBox, p)

/-- The loop over the streams, mp4write.h 2237-2240. -/
def writeStreams (ts hn : Nat → Nat → Nat) (now : Nat) : W → List MStream → Option (W × List Nat)
  | w, [] => some (w, [])
  | w, s :: ss =>
    match writeStream ts hn now w s with
    | none => none
    | some (w, p) => (writeStreams ts hn now w ss).map fun r => (r.1, p :: r.2)

/-- `MP4Write`, mp4write.h 1602-1618: what is not in the streams. -/
structure Header where
  now : Nat
  version : Nat := 0
  scale : Nat := 1000
  firstTrack : Nat := 0

/-- `min_duration`, mp4write.h 1628-1643. -/
def minDuration (ss : List MStream) : Nat := ss.foldl (fun m s => if s.duration < m then s.duration else m) (2 ^ 64 - 1)

/-- The streams are flushed first, mp4write.h 2213-2216 (`flush`, 1150-1154). -/
def flushed (ss : List MStream) : List MStream := ss.map fun s => { s with w := Verif.Tables.flush s.w }

/-- `write_moov(mp4w, false)`, mp4write.h 2210-2240: without closing the box; the streams are flushed first. -/
def writeMoov (ts hn : Nat → Nat → Nat) (h : Header) (w : W) (ss : List MStream) : Option (W × List Nat) :=
  let ss := flushed ss
  let w := (w.openBox (fourcc 'm' 'o' 'o' 'v')).child (fourcc 'm' 'v' 'h' 'd') (mvhdBody h.version h.now h.scale (ts h.scale (minDuration ss)) (h.firstTrack + ss.length + 1))
  writeStreams ts hn h.now w ss

/-- `rebase_streams`, mp4write.h 2252-2258. -/
def rebase (offset : Nat) : W → List (MStream × Nat) → W
  | w, [] => w
  | w, (s, p) :: r => rebase offset (writeStcoBody w s p offset) r

/-- The brands of a movie file, mp4write.h 1762-1767. -/
def movieFtyp : List UInt8 :=
  ftypBody (fourcc 'i' 's' 'o' 'm') 512 [fourcc 'i' 's' 'o' 'm', fourcc 'i' 's' 'o' '2', fourcc 'a' 'v' 'c' '1', fourcc 'm' 'p' '4' '1']

/-- The file made by `MP4Mux`: `start` writes the ftyp box (mp4mux.h 264-274), `end` the moov box (370) and `flush_all` (134-161) the header of the media data, the chunk offsets again, and the media data
(`body`, the temporary file). -/
def movieFile (ts hn : Nat → Nat → Nat) (now : Nat) (ss : List MStream) (body : List UInt8) : Option (List UInt8) :=
  let w := W.child ⟨[], 0, []⟩ (fourcc 'f' 't' 'y' 'p') movieFtyp
  match writeMoov ts hn { now } w ss with
  | none => none
  | some (w, ps) =>
    let w := (w.closeBox.put (be 4 (body.length + 8))).put (be 4 (fourcc 'm' 'd' 'a' 't'))
    let w := rebase w.bytes.length w ((flushed ss).zip ps)
    some (w.bytes ++ body)

/-- The brands of an initialization segment, mp4fragmented.h 740-746. -/
def initFtyp : List UInt8 :=
  ftypBody (fourcc 'i' 's' 'o' 'm') 0 [fourcc 'i' 's' 'o' '8', fourcc 'm' 'p' '4' '1', fourcc 'd' 'a' 's' 'h', fourcc 'a' 'v' 'c' '1', fourcc 'c' 'm' 'f' 's']

/-- `produce_m4f_initialization`, mp4fragmented.h 691-794, on an empty file: one stream without samples; `MovieExtendsHeaderBox` and `TrackExtendsBox` (mp4/mp4_fragments.fl 39-61), version 0; the pssh boxes. -/
def initialization (ts hn : Nat → Nat → Nat) (now trackId : Nat) (kind : Kind) (duration scale : Nat) (kid : Option (List UInt8)) (pssh : List UInt8) : Option (List UInt8) :=
  let s : MStream := { w := { visual := kind.visual? }, kind, id := trackId - 1, scale, mvhdScale := scale, allowEmpty := true, kid }
  let w := W.child ⟨[], 0, []⟩ (fourcc 'f' 't' 'y' 'p') initFtyp
  match writeMoov ts hn { now, version := 1, scale, firstTrack := trackId - 1 } w [s] with
  | none => none
  | some (w, _) =>
    let w := (w.openBox (fourcc 'm' 'v' 'e' 'x')).child (fourcc 'm' 'e' 'h' 'd') (full 0 0 ++ be 4 duration)
    let w := w.child (fourcc 't' 'r' 'e' 'x') (full 0 0 ++ be 4 trackId ++ be 4 1 ++ be 4 0 ++ be 4 0 ++ be 4 0)
    some ((w.closeBox.put pssh).closeBox).bytes

end Verif.Movie

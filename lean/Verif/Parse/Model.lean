import Verif.Fragment.Model
import Verif.Reader.Model
/-
Model of the opening of an MP4 file: `MP4Reader::parse` with `CPM4Track::parse`, `CMP4Handler::parse`, the sample entries and the sample tables (/repo/src/mg/media/mp4parse.h 188-575, 659-843, 1031-1200,
1442-1520, 1590-1815, 1866-2040, 2071-2160, 2612-2700), with the boxes of /repo/src/mg/media/mp4/mp4.fl.

The bit stream is taken as the bytes that are left (`r`) of a file of `N` bytes: the position is `N - r.length`. Reading more than is left throws (bitstream.h 1164); skipping or moving behind the end moves to the end
(bitstream.h 795-806, 949-958). The asserts are not there (release). A table that comes twice in a track is taken as an error, as its assert says; access through a null pointer and writing outside an array also count as
`thrown`. Time code tracks in uuid boxes (`CPM4LTCTrack`) are left out: they are skipped like other uuid boxes. Whether the decoder configuration is accepted (avcC with its parameter sets; esds with its
descriptors) is a parameter.
-/
namespace Verif.Parse
open Verif.Cenc.Spec (beVal)
open Verif.Fragment (fourcc)
open Verif.Tables (sub64 u32)

/-- Why there is no result: an exception, or the loops are still running. -/
inductive Stop where
  | thrown
  | endless
deriving DecidableEq, Repr

abbrev Res := Except Stop

/-- `getbits` of `n` bytes, bitstream.h 408-418. -/
def get (n : Nat) (r : List UInt8) : Res (Nat × List UInt8) := if n ≤ r.length then .ok (beVal (r.take n), r.drop n) else .error .thrown

/-- `read_bytes`, mp4parse.h 508-524 (a short read is taken as an exception; the code only asserts). -/
def getBytes (n : Nat) (r : List UInt8) : Res (List UInt8 × List UInt8) := if n ≤ r.length then .ok (r.take n, r.drop n) else .error .thrown

/-- Fields that are read and not used later. -/
def pass (n : Nat) (r : List UInt8) : Res (List UInt8) := if n ≤ r.length then .ok (r.drop n) else .error .thrown

/-- `FullBox`, mp4/mp4.fl 172-190: the version. -/
def getFull (r : List UInt8) : Res (Nat × List UInt8) := do
  let (v, r) ← get 1 r
  let (_, r) ← get 3 r
  .ok (v, r)

/-- `n` calls of `read_uint`, mp4parse.h 502-506. -/
def getWords : (n : Nat) → List UInt8 → Res (List Nat × List UInt8)
  | 0, r => .ok ([], r)
  | n + 1, r => do
    let (w, r) ← get 4 r
    let (ws, r) ← getWords n r
    .ok (w :: ws, r)

/-- `Box` with `_box_position`, mp4/mp4.fl 95-169, mp4parse.h 547-558. `size` is `get_size`. -/
structure Hdr where
  start : Nat
  size : Nat
  type : Nat
deriving DecidableEq, Repr

/-- The size in a box with a 64 bit size, mp4/mp4.fl 103-107, 156-159. -/
def longSize (size : Nat) (r : List UInt8) : Res (Nat × List UInt8) := if size = 1 then get 8 r else .ok (size, r)

/-- The identifier of a uuid box, mp4/mp4.fl 109-131, and the size without it, 161-162. -/
def uuidSize (type size : Nat) (r : List UInt8) : Res (Nat × List UInt8) :=
  if type = fourcc 'u' 'u' 'i' 'd' then do
    let r ← pass 16 r
    .ok (sub64 size 16, r)
  else .ok (size, r)

/-- `Box::get`, mp4/mp4.fl 95-131. -/
def getBox (N : Nat) (r : List UInt8) : Res (Hdr × List UInt8) := do
  let start := N - r.length
  let (size, r) ← get 4 r
  let (type, r) ← get 4 r
  let (size, r) ← longSize size r
  let (size, r) ← uuidSize type size r
  .ok (⟨start, size, type⟩, r)

/-- `do_box`, mp4parse.h 547-558: at the end of the data the box stays the last one. -/
def doBox (N : Nat) (h : Hdr) (r : List UInt8) : Res (Hdr × List UInt8) := if r = [] then .ok (h, r) else getBox N r

/-- `skip_current` with `skipbytes`, mp4parse.h 202-226, 575-579: the number of bits is a 64 bit number. -/
def skip (h : Hdr) (r : List UInt8) : List UInt8 := r.drop (sub64 h.size 8 * 8 % 2 ^ 64 / 8)

/-- The boxes that the loops know, mp4parse.h 2071-2147, 2612-2668, 1463-1488, 1596-1618. -/
inductive Known where
  | ftyp | moov | mvhd | trak | mdat | free | tkhd | edts | elst | mdia | mdhd | hdlr | minf | vmhd | smhd | dinf | dref | stbl | stsd | stts | ctts | stsc | stsz | stco | stss | avcC | btrt | pasp | other
deriving DecidableEq, Repr

/-- The constants `box_...`, mp4parse.h 35-54, mp4/mp4.fl. -/
def knownTypes : List (Nat × Known) :=
  [(fourcc 'f' 't' 'y' 'p', .ftyp), (fourcc 's' 't' 'y' 'p', .ftyp), (fourcc 'm' 'o' 'o' 'v', .moov), (fourcc 'm' 'v' 'h' 'd', .mvhd), (fourcc 't' 'r' 'a' 'k', .trak), (fourcc 'm' 'd' 'a' 't', .mdat),
   (fourcc 'f' 'r' 'e' 'e', .free), (fourcc 't' 'k' 'h' 'd', .tkhd), (fourcc 'e' 'd' 't' 's', .edts), (fourcc 'e' 'l' 's' 't', .elst), (fourcc 'm' 'd' 'i' 'a', .mdia), (fourcc 'm' 'd' 'h' 'd', .mdhd),
   (fourcc 'h' 'd' 'l' 'r', .hdlr), (fourcc 'm' 'i' 'n' 'f', .minf), (fourcc 'v' 'm' 'h' 'd', .vmhd), (fourcc 's' 'm' 'h' 'd', .smhd), (fourcc 'd' 'i' 'n' 'f', .dinf), (fourcc 'd' 'r' 'e' 'f', .dref),
   (fourcc 's' 't' 'b' 'l', .stbl), (fourcc 's' 't' 's' 'd', .stsd), (fourcc 's' 't' 't' 's', .stts), (fourcc 'c' 't' 't' 's', .ctts), (fourcc 's' 't' 's' 'c', .stsc), (fourcc 's' 't' 's' 'z', .stsz),
   (fourcc 's' 't' 'c' 'o', .stco), (fourcc 's' 't' 's' 's', .stss), (fourcc 'a' 'v' 'c' 'C', .avcC), (fourcc 'b' 't' 'r' 't', .btrt), (fourcc 'p' 'a' 's' 'p', .pasp)]

/-- `switch(mp4.get_box().get_type())`. -/
def known (type : Nat) : Known := (knownTypes.lookup type).getD .other

/-! ### Sample entries -/

/-- `CMP4VisualEntry` and `CMP4AudioEntry`, mp4parse.h 1578-1596, 1765-1778: type of the entry, parameters, and the body of the avcC box or the boxes behind the audio entry. -/
inductive Entry where
  | visual (type width height : Nat) (config : Option (List UInt8))
  | audio (type channels rate : Nat) (config : Option (List UInt8))
deriving DecidableEq, Repr

/-- Whether the decoder configurations are accepted: `CAVCCHeader::get` (1606-1609), `ES_Descriptor::get` and `aac_info_mp4::get` (1789-1815) without exception. -/
structure Accept where
  visual : List UInt8 → Bool
  audio : List UInt8 → Bool

/-- `CMP4VisualEntry::parse_boxes`, mp4parse.h 1592-1621, up to `stop`. -/
def visualBoxes (ok : Accept) (N stop : Nat) : (fuel : Nat) → Hdr → Option (List UInt8) → List UInt8 → Res (Option (List UInt8) × Hdr × List UInt8)
  | 0, _, _, _ => .error .endless
  | fuel + 1, h, c, r =>
    if N - r.length < stop then do
      let (h, r) ← doBox N h r
      match known h.type with
      | .avcC => do
        let (b, r) ← getBytes (sub64 h.size 8) r
        if ok.visual b then visualBoxes ok N stop fuel h (some b) r else .error .thrown
      | .btrt => do
        let r ← pass 12 r
        visualBoxes ok N stop fuel h c r
      | .pasp => do
        let r ← pass 8 r
        visualBoxes ok N stop fuel h c r
      | _ => visualBoxes ok N stop fuel h c (skip h r)
    else .ok (c, h, r)

/-- `CMP4VisualEntry::parse`, mp4parse.h 1624-1641, with `VisualSampleEntry`, mp4/mp4.fl 524-560: the name takes 31 bytes, or its size. -/
def visualEntry (ok : Accept) (fuel N : Nat) (h : Hdr) (r : List UInt8) : Res (Entry × Hdr × List UInt8) := do
  let r ← pass 24 r
  let (width, r) ← get 2 r
  let (height, r) ← get 2 r
  let r ← pass 14 r
  let (size, r) ← get 1 r
  let r ← pass (if size ≤ 31 then 31 else size) r
  let r ← pass 4 r
  let (c, h', r) ← visualBoxes ok N ((h.start + h.size) % 2 ^ 64) fuel h none r
  .ok (.visual h.type width height c, h', r)

/-- `CMP4AudioEntry::parse`, mp4parse.h 1780-1819, with `AudioSampleEntry`, mp4/mp4.fl 667-685. For other types than mp4a and enca the configuration is not looked at (1791-1797). -/
def audioEntry (ok : Accept) (N : Nat) (h : Hdr) (r : List UInt8) : Res (Entry × Hdr × List UInt8) := do
  let r ← pass 16 r
  let (channels, r) ← get 2 r
  let r ← pass 6 r
  let (rate, r) ← get 4 r
  let stop := (h.start + h.size) % 2 ^ 64
  if N - r.length < stop then do
    let (b, r) ← getBytes (stop - (N - r.length)) r
    if (h.type = fourcc 'm' 'p' '4' 'a' ∨ h.type = fourcc 'e' 'n' 'c' 'a') ∧ ok.audio b = false then .error .thrown
    else .ok (.audio h.type channels (rate / 2 ^ 16) (some b), h, r)
  else .ok (.audio h.type channels (rate / 2 ^ 16) none, h, r)

/-! ### Media information -/

/-- The handlers of a track, mp4parse.h 2097-2112. -/
inductive Handler where
  | vide | soun | text
deriving DecidableEq, Repr

/-- `parse_sample_description` of the handlers, mp4parse.h 1884-1902, 1942-1952, 2036-2039. -/
def sampleEntry (ok : Accept) (fuel N : Nat) (k : Handler) (h : Hdr) (r : List UInt8) : Res (Option Entry × Hdr × List UInt8) :=
  match k with
  | .vide => (visualEntry ok fuel N h r).map fun x => (some x.1, x.2)
  | .soun => (audioEntry ok N h r).map fun x => (some x.1, x.2)
  | .text => .ok (none, h, skip h r)

/-- The loop over the entries, mp4parse.h 1474-1480. -/
def sampleEntries (ok : Accept) (fuel N : Nat) (k : Handler) : (n : Nat) → Hdr → List UInt8 → Res (List Entry × Hdr × List UInt8)
  | 0, h, r => .ok ([], h, r)
  | n + 1, h, r => do
    let (h, r) ← doBox N h r
    let (e, h, r) ← sampleEntry ok fuel N k h r
    let (es, h, r) ← sampleEntries ok fuel N k n h r
    .ok (e.toList ++ es, h, r)

/-- `parse_data_reference_box`, mp4parse.h 276-294: the box with the address is read as one without content. -/
def getDref (N : Nat) (r : List UInt8) : Res (List UInt8) := do
  let (_, r) ← getFull r
  let (_, r) ← get 4 r
  let (_, r) ← getBox N r
  let (_, r) ← getFull r
  .ok r

/-- `parse_boxes` of a handler, mp4parse.h 1463-1496, at box `h`, with `not_sample_description_found` of the three handlers (1454-1461, 2030-2034), up to `stop`. `F` bounds the inner loops. -/
def handlerBoxes (ok : Accept) (F N stop : Nat) (k : Handler) : (fuel : Nat) → Hdr → List UInt8 → Res (List Entry × Hdr × List UInt8)
  | 0, _, _ => .error .endless
  | fuel + 1, h, r => do
    let more (h : Hdr) (r : List UInt8) : Res (List Entry × Hdr × List UInt8) :=
      if k = .text then .ok ([], h, skip h r)
      else if stop ≤ N - r.length then .error .thrown
      else do
        let (h, r) ← doBox N h r
        handlerBoxes ok F N stop k fuel h r
    match known h.type with
    | .stbl => more h r
    | .dinf => more h r
    | .dref => do
      let r ← getDref N r
      more h r
    | .stsd => do
      let (_, r) ← getFull r
      let (n, r) ← get 4 r
      let (es, h, r) ← sampleEntries ok F N k n h r
      if n = 0 then more h r else .ok (es, h, r)
    | _ => more h (skip h r)

/-- `parse_header` of the handlers, mp4parse.h 1871-1882, 1929-1940, 2023-2028, with the following `do_box` (1506-1508). -/
def mediaHeader (N : Nat) (k : Handler) (h : Hdr) (r : List UInt8) : Res (Hdr × List UInt8) :=
  match k, known h.type with
  | .vide, .vmhd => do
    let r ← pass 12 r
    doBox N h r
  | .soun, .smhd => do
    let r ← pass 8 r
    doBox N h r
  | .text, _ => doBox N h (skip h r)
  | _, _ => .ok (h, r)

/-- `CMP4Handler::parse`, mp4parse.h 1499-1511. -/
def handlerParse (ok : Accept) (F N : Nat) (k : Handler) (h : Hdr) (r : List UInt8) : Res (List Entry × Hdr × List UInt8) := do
  let stop := (h.start + h.size) % 2 ^ 64
  let (h, r) ← doBox N h r
  let (h, r) ← mediaHeader N k h r
  handlerBoxes ok F N stop k F h r

/-! ### Tracks -/

/-- `CPM4Track` while it is read, mp4parse.h 2050-2068, with the words of the tables. `elst` is `_stream_offset`, mp4parse.h 1188-1194. -/
structure TrackRd where
  id : Nat := 0
  duration : Nat := 0
  width : Nat := 0
  height : Nat := 0
  scale : Nat := 0
  mediaDuration : Nat := 0
  lang : Nat × Nat × Nat := (0, 0, 0)
  handler : Option Nat := none
  media : Option Handler := none
  entries : List Entry := []
  elst : Option Nat := none
  stts : Option (List Nat) := none
  ctts : Option (List Nat) := none
  stss : Option (List Nat) := none
  stsc : Option (List Nat) := none
  stsz : Option (List Nat) := none
  stco : Option (List Nat) := none
deriving DecidableEq, Repr

/-- `TrackHeaderBox`, mp4/mp4.fl 283-326. -/
def getTkhd (t : TrackRd) (r : List UInt8) : Res (TrackRd × List UInt8) := do
  let (v, r) ← getFull r
  let k := if v = 1 then 8 else 4
  let r ← pass (2 * k) r
  let (id, r) ← get 4 r
  let r ← pass 4 r
  let (duration, r) ← get k r
  let r ← pass 52 r
  let (width, r) ← get 2 r
  let r ← pass 2 r
  let (height, r) ← get 2 r
  let r ← pass 2 r
  .ok ({ t with id, duration, width, height }, r)

/-- `MediaHeaderBox`, mp4/mp4.fl 359-394; the language as `get_lang`, 405: five bits and 0x60. -/
def getMdhd (t : TrackRd) (r : List UInt8) : Res (TrackRd × List UInt8) := do
  let (v, r) ← getFull r
  let k := if v = 1 then 8 else 4
  let r ← pass (2 * k) r
  let (scale, r) ← get 4 r
  let (mediaDuration, r) ← get k r
  let (l, r) ← get 2 r
  let r ← pass 2 r
  .ok ({ t with scale, mediaDuration, lang := (l / 1024 % 32 + 0x60, l / 32 % 32 + 0x60, l % 32 + 0x60) }, r)

/-- `HandlerBox`, mp4/mp4.fl 420-453, with the size of the name (457); a name of 1024 bytes or more does not fit `desc`, 430. -/
def getHdlr (h : Hdr) (t : TrackRd) (r : List UInt8) : Res (TrackRd × List UInt8) := do
  let (_, r) ← getFull r
  let r ← pass 4 r
  let (type, r) ← get 4 r
  let r ← pass 12 r
  let n := u32 (u32 h.size + 2 ^ 32 - 32)
  if n < 1024 then do
    let r ← pass n r
    .ok ({ t with handler := some type }, r)
  else .error .thrown

/-- A table of `count` times `k` words, mp4parse.h 662-700 (stsc), 1042-1052 (stts), 1089-1097 (ctts), 1162-1168 (stss), 825-838 (stco). -/
def getTable (k : Nat) (r : List UInt8) : Res (List Nat × List UInt8) := do
  let (_, r) ← getFull r
  let (n, r) ← get 4 r
  let (ws, r) ← getWords (k * n) r
  .ok (n :: ws, r)

/-- `parse_stsz`, mp4parse.h 776-803: no words if all samples have one size. -/
def getStsz (r : List UInt8) : Res (List Nat × List UInt8) := do
  let (_, r) ← getFull r
  let (size, r) ← get 4 r
  let (n, r) ← get 4 r
  let (ws, r) ← getWords (if size = 0 then n else 0) r
  .ok (size :: n :: ws, r)

/-- The entries of `EditListBox`, mp4/mp4.fl 717-752: duration and whether the media time is -1 (in version 1 the low half decides, `I64` of TBitstream.h 35). -/
def getEdits (v : Nat) : (n : Nat) → List UInt8 → Res (List (Nat × Bool) × List UInt8)
  | 0, r => .ok ([], r)
  | n + 1, r => do
    let k := if v = 1 then 8 else 4
    let (d, r) ← get k r
    let (m, r) ← get k r
    let r ← pass 4 r
    let (es, r) ← getEdits v n r
    .ok ((d, m % 2 ^ 32 == 2 ^ 32 - 1) :: es, r)

/-- `parse_elst`, mp4parse.h 1181-1197: `_stream_offset` stays 0 unless there are two edits, the first empty. -/
def getElst (r : List UInt8) : Res (Nat × List UInt8) := do
  let (v, r) ← getFull r
  let (n, r) ← get 4 r
  let (es, r) ← getEdits v n r
  match es with
  | [(d, true), _] => .ok (d, r)
  | _ => .ok (0, r)

/-- The handler of a track, mp4parse.h 2097-2112; `none` = exception. -/
def handlerOf (type : Nat) : Res Handler :=
  if type = fourcc 'v' 'i' 'd' 'e' then .ok .vide
  else if type = fourcc 's' 'o' 'u' 'n' then .ok .soun
  else if type = fourcc 't' 'e' 'x' 't' then .ok .text
  else .error .thrown

/-- A table is read once. -/
def once {α : Type} (o : Option α) : Res Unit := if o.isSome then .error .thrown else .ok ()

/-- The box `h` of a track: the switch of `CPM4Track::parse_boxes`, mp4parse.h 2073-2147. The composition offsets need the durations (1087, null pointer otherwise). -/
def trackBox (ok : Accept) (fuel N : Nat) (h : Hdr) (t : TrackRd) (r : List UInt8) : Res (TrackRd × Hdr × List UInt8) :=
  match known h.type with
  | .trak => .ok (t, h, r)
  | .mdia => .ok (t, h, r)
  | .edts => .ok (t, h, r)
  | .tkhd => do
    let (t, r) ← getTkhd t r
    .ok (t, h, r)
  | .mdhd => do
    let (t, r) ← getMdhd t r
    .ok (t, h, r)
  | .hdlr => do
    let (t, r) ← getHdlr h t r
    .ok (t, h, r)
  | .minf =>
    match t.handler with
    | none => .error .thrown
    | some type => do
      let k ← handlerOf type
      let (es, h, r) ← handlerParse ok fuel N k h r
      .ok ({ t with media := some k, entries := t.entries ++ es }, h, r)
  | .stts => do
    once t.stts
    let (ws, r) ← getTable 2 r
    .ok ({ t with stts := some ws }, h, r)
  | .ctts => do
    once t.ctts
    if t.stts.isNone then .error .thrown
    else do
      let (ws, r) ← getTable 2 r
      .ok ({ t with ctts := some ws }, h, r)
  | .elst => do
    once t.elst
    let (d, r) ← getElst r
    .ok ({ t with elst := some d }, h, r)
  | .stss => do
    once t.stss
    let (ws, r) ← getTable 1 r
    .ok ({ t with stss := some ws }, h, r)
  | .stco => do
    once t.stco
    let (ws, r) ← getTable 1 r
    .ok ({ t with stco := some ws }, h, r)
  | .stsc => do
    once t.stsc
    let (ws, r) ← getTable 3 r
    .ok ({ t with stsc := some ws }, h, r)
  | .stsz => do
    once t.stsz
    let (ws, r) ← getStsz r
    .ok ({ t with stsz := some ws }, h, r)
  | _ => .ok (t, h, skip h r)

/-- The recursion of `CPM4Track::parse_boxes`, mp4parse.h 2149-2153: while the position is before `stop`. `F` bounds the inner loops. -/
def trackBoxes (ok : Accept) (F N stop : Nat) : (fuel : Nat) → Hdr → TrackRd → List UInt8 → Res (TrackRd × Hdr × List UInt8)
  | 0, _, _, _ => .error .endless
  | fuel + 1, h, t, r =>
    if N - r.length < stop then do
      let (h, r) ← doBox N h r
      let (t, h, r) ← trackBox ok F N h t r
      trackBoxes ok F N stop fuel h t r
    else .ok (t, h, r)

/-- `CPM4Track::parse`, mp4parse.h 2163-2170: the box `h` is the trak box. -/
def trackParse (ok : Accept) (F N : Nat) (h : Hdr) (r : List UInt8) : Res (TrackRd × Hdr × List UInt8) := trackBoxes ok F N ((h.start + h.size) % 2 ^ 64) F h {} r

/-! ### The file -/

/-- `MP4Reader` while it is read, mp4parse.h 2591-2602: each track with the time scale of the movie at that moment (2640). -/
structure FileRd where
  brands : List UInt8 := []
  scale : Nat := 0
  duration : Nat := 0
  mdatEnd : Nat := 0
  tracks : List (TrackRd × Nat) := []
deriving DecidableEq, Repr

/-- `FileTypeBox`, mp4/mp4.fl 787-812: brands up to the size of the box; with a size that is not a multiple of four the count never gets to 0 and the data end first. -/
def getFtyp (h : Hdr) (f : FileRd) (r : List UInt8) : Res (FileRd × List UInt8) := do
  let r ← pass 8 r
  let n := u32 (u32 h.size + 2 ^ 32 - 16)
  if n % 4 = 0 then do
    let (brands, r) ← getBytes n r
    .ok ({ f with brands }, r)
  else .error .thrown

/-- `MovieHeaderBox`, mp4/mp4.fl 208-253. -/
def getMvhd (f : FileRd) (r : List UInt8) : Res (FileRd × List UInt8) := do
  let (v, r) ← getFull r
  let k := if v = 1 then 8 else 4
  let r ← pass (2 * k) r
  let (scale, r) ← get 4 r
  let (duration, r) ← get k r
  let r ← pass 80 r
  .ok ({ f with scale, duration }, r)

/-- The box `h` of the file: the switch of `MP4Reader::parse_boxes`, mp4parse.h 2618-2668 (iods, meta, uuid and unknown boxes are skipped). -/
def fileBox (ok : Accept) (F : Nat) (file : List UInt8) (h : Hdr) (f : FileRd) (r : List UInt8) : Res (FileRd × Hdr × List UInt8) :=
  match known h.type with
  | .ftyp => do
    let (f, r) ← getFtyp h f r
    .ok (f, h, r)
  | .mvhd => do
    let (f, r) ← getMvhd f r
    .ok (f, h, r)
  | .mdat => .ok ({ f with mdatEnd := (h.start + h.size) % 2 ^ 64 }, h, file.drop ((h.start + h.size) % 2 ^ 64))
  | .free => .ok (f, h, file.drop ((h.start + h.size) % 2 ^ 64))
  | .moov => .ok (f, h, r)
  | .trak => do
    let (t, h, r) ← trackParse ok F file.length h r
    .ok ({ f with tracks := f.tracks ++ [(t, f.scale)] }, h, r)
  | _ => .ok (f, h, skip h r)

/-- The recursion of `MP4Reader::parse_boxes`, mp4parse.h 2670-2674. -/
def fileBoxes (ok : Accept) (F : Nat) (file : List UInt8) : (fuel : Nat) → Hdr → FileRd → List UInt8 → Res FileRd
  | 0, _, _, _ => .error .endless
  | fuel + 1, h, f, r =>
    if r = [] then .ok f
    else do
      let (h, r) ← doBox file.length h r
      let (f, h, r) ← fileBox ok F file h f r
      fileBoxes ok F file fuel h f r

/-- `MP4Reader::parse`, mp4parse.h 2686-2697: the first box must be ftyp or styp. -/
def parseFile (ok : Accept) (fuel : Nat) (file : List UInt8) : Res FileRd := do
  let (h, _) ← getBox file.length file
  if known h.type = .ftyp then fileBoxes ok fuel file (fuel + 1) ⟨0, 0, 0⟩ {} file else .error .thrown

/-- The sample tables of a track, in the order of the code (mp4parse.h 2121-2141); a missing table is empty. `none` = access outside a table while it is read. -/
def TrackRd.boxes (t : TrackRd) (mvhdScale : Nat) : Option Verif.Reader.TrackBoxes := do
  let chunks ← Verif.Tables.parseStsc (t.stsc.getD [0])
  let sizes ← Verif.Tables.parseStsz (t.stsz.getD [0, 0])
  let offsets ← Verif.Tables.parseStco (t.stco.getD [0])
  pure { sm := ⟨chunks, sizes.1, sizes.2.1, sizes.2.2, offsets⟩, stts := t.stts.getD [0], ctts := t.ctts, stss := t.stss, scale := t.scale, elst := t.elst.getD 0, mvhdScale, visual := t.media = some .vide }

/-- The track with its tables. -/
def TrackRd.open (t : TrackRd) (mvhdScale : Nat) : Option Verif.Reader.Track := do
  let b ← t.boxes mvhdScale
  Verif.Reader.openTrack b

/-- An opened file: the boxes read, and the reader at the first sample of every track. -/
def openFile (ok : Accept) (fuel : Nat) (file : List UInt8) : Res (FileRd × Verif.Reader.Reader) := do
  let f ← parseFile ok fuel file
  match f.tracks.mapM fun t => t.1.open t.2 with
  | none => .error .thrown
  | some ts => .ok (f, { streams := ts.map fun t => (t, 0), mdatEnd := f.mdatEnd })

end Verif.Parse

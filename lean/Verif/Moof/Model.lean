import Verif.Fragment.Model
import Verif.Fragment.Spec
/-
Model of the reader of media fragments, `MOOFReader` (/repo/src/mg/media/MOOFReader.h 24-309), on a file (`CMP4`, /repo/src/mg/media/mp4parse.h 242-604), and
of the command that makes a file out of fragments, `do_moof_mux` with `decrypt` (/repo/src/mgcli/mp4info.cpp 3801-4165), up to the calls of `add_sample`.

Simplifications: the file is its bytes and a position (how the buffered reader comes near to this is the subject of C53, C93 and C94; a skip beyond the
end stops at the end); `none` stands for an exception, an access outside a table, or a read of memory that was not written; the values of the boxes tfxd, tfrf, saiz, saio, tenc are
not kept, as the command does not use them. Box classes are generated from mp4/mp4.fl, mp4/mp4_fragments.fl and mp4/cenc.fl. Big-endian fields are read with the byte readers
`num`, `opt`, `raw` and `full` of the module Fragment.
-/
namespace Verif.Moof
open Verif.Fragment (fourcc)
open Verif.Fragment.Spec (num opt raw full signed32)

/-- `Box`, mp4/mp4.fl 96-171, after `get`: size field (of 64 bits when the first is 1), type, user type. -/
structure Head where
  size : Nat
  type : Nat
  guid : List UInt8

/-- `Box::get`, mp4/mp4.fl 96-137. -/
def getBox (b : List UInt8) : Option (Head × List UInt8) := do
  let (size, b) ← num 4 b
  let (type, b) ← num 4 b
  let (size, b) ← if size = 1 then num 8 b else some (size, b)
  let (guid, b) ← if type = fourcc 'u' 'u' 'i' 'd' then raw 16 b else some ([], b)
  some (⟨size, type, guid⟩, b)

/-- `Box::get_size`, mp4/mp4.fl 154-168. -/
def Head.getSize (h : Head) : Nat := if h.type = fourcc 'u' 'u' 'i' 'd' then (h.size + 2 ^ 64 - 16) % 2 ^ 64 else h.size

/-- The cases of `parse_boxes`, MOOFReader.h 66-164. -/
inductive Kind
  | free | moof | traf | tfhd | mfhd | tfdt | trun | mdat | skipped | saio | saiz | tenc | senc | uuid | unknown
  deriving DecidableEq

/-- The switch of `parse_boxes`, MOOFReader.h 66-164. -/
def kind (t : Nat) : Kind :=
  if t = fourcc 'f' 'r' 'e' 'e' then .free
  else if t = fourcc 'm' 'o' 'o' 'f' then .moof
  else if t = fourcc 't' 'r' 'a' 'f' then .traf
  else if t = fourcc 't' 'f' 'h' 'd' then .tfhd
  else if t = fourcc 'm' 'f' 'h' 'd' then .mfhd
  else if t = fourcc 't' 'f' 'd' 't' then .tfdt
  else if t = fourcc 't' 'r' 'u' 'n' then .trun
  else if t = fourcc 'm' 'd' 'a' 't' then .mdat
  else if t = fourcc 'a' 'v' 'c' 'n' then .skipped
  else if t = fourcc 's' 'd' 't' 'p' then .skipped
  else if t = fourcc 's' 'a' 'i' 'o' then .saio
  else if t = fourcc 's' 'a' 'i' 'z' then .saiz
  else if t = fourcc 't' 'e' 'n' 'c' then .tenc
  else if t = fourcc 's' 'e' 'n' 'c' then .senc
  else if t = fourcc 'u' 'u' 'i' 'd' then .uuid
  else .unknown

/-- `trun_body`, mp4/mp4_fragments.fl 104-114 (fields that are not there are 0 here; they are not looked at). -/
structure RunItem where
  duration : Nat
  size : Nat
  offset : Nat
deriving DecidableEq, Repr

/-- `SingleEncryptionBox`, mp4/cenc.fl 128-184: vector and sub-samples (clear, protected). -/
structure EncItem where
  iv : List UInt8
  subs : List (Nat × Nat)
deriving DecidableEq, Repr

/-- The members of `MOOFReader`, MOOFReader.h 27-53. -/
structure Rd where
  /-- `_mdat_position`, 0 when none was found -/
  mdat : Nat
  moof : Nat
  /-- `_has_bbox`, `_bbox.get_baseMediaDecodeTime()` -/
  hasBase : Bool
  base : Nat
  /-- default_sample_duration and default_sample_size of `_tbox` -/
  defDuration : Nat
  defSize : Nat
  /-- `_trunbox`: flags, version, data_offset, samples -/
  version : Nat
  flags : Nat
  dataOffset : Nat
  run : List RunItem
  hasSenc : Bool
  senc : List EncItem

/-- Constructor, MOOFReader.h 176-185; `moof` and `off` are what the uninitialised `_moof_position` and `data_offset` hold. (`sample_count` of `_trunbox` is not initialised either;
here it is the number of samples.) -/
def Rd.new (moof off : Nat) : Rd := ⟨0, moof, false, 0, 0, 0, 0, 0, off, [], false, []⟩

/-- `TrackFragmentHeaderBox::get`, mp4/mp4_fragments.fl 69-102: fields that are not in the box keep their values. -/
def getTfhd (r : Rd) (b : List UInt8) : Option (Rd × List UInt8) := do
  let (_, fl, b) ← full b
  let (_, b) ← num 4 b
  let (_, b) ← opt (fl &&& 0x1 != 0) 8 b
  let (_, b) ← opt (fl &&& 0x2 != 0) 4 b
  let (d, b) ← opt (fl &&& 0x8 != 0) 4 b
  let (s, b) ← opt (fl &&& 0x10 != 0) 4 b
  let (_, b) ← opt (fl &&& 0x20 != 0) 4 b
  some ({ r with defDuration := d.getD r.defDuration, defSize := s.getD r.defSize }, b)

/-- `TrackFragmentBaseMediaDecodeTimeBox::get`, mp4/mp4_fragments.fl 276-289, with `V64`, mp4.fl 5. -/
def getTfdt (r : Rd) (b : List UInt8) : Option (Rd × List UInt8) := do
  let (v, _, b) ← full b
  let (t, b) ← if v = 1 then num 8 b else num 4 b
  some ({ r with hasBase := true, base := t }, b)

/-- `trun_body::get`, mp4/mp4_fragments.fl 104-114. -/
def getRun (flags : Nat) (b : List UInt8) : Option (RunItem × List UInt8) := do
  let (d, b) ← opt (flags &&& 0x100 != 0) 4 b
  let (s, b) ← opt (flags &&& 0x200 != 0) 4 b
  let (_, b) ← opt (flags &&& 0x400 != 0) 4 b
  let (c, b) ← opt (flags &&& 0x800 != 0) 4 b
  some (⟨d.getD 0, s.getD 0, c.getD 0⟩, b)

def getRuns (flags : Nat) : Nat → List UInt8 → Option (List RunItem × List UInt8)
  | 0, b => some ([], b)
  | n + 1, b => do
    let (i, b) ← getRun flags b
    let (is, b) ← getRuns flags n b
    some (i :: is, b)

/-- `_trunbox.cleanup()` and `TrackRunBox::get`, mp4/mp4_fragments.fl 116-186. -/
def getTrun (r : Rd) (b : List UInt8) : Option (Rd × List UInt8) := do
  let (v, fl, b) ← full b
  let (n, b) ← num 4 b
  let (o, b) ← opt (fl &&& 0x1 != 0) 4 b
  let (_, b) ← opt (fl &&& 0x4 != 0) 4 b
  let (run, b) ← getRuns fl n b
  some ({ r with version := v, flags := fl, dataOffset := o.getD r.dataOffset, run := run }, b)

def getSubs : Nat → List UInt8 → Option (List (Nat × Nat) × List UInt8)
  | 0, b => some ([], b)
  | n + 1, b => do
    let (c, b) ← num 2 b
    let (p, b) ← num 4 b
    let (s, b) ← getSubs n b
    some ((c, p) :: s, b)

/-- `SingleEncryptionBox::get`, mp4/cenc.fl 128-184. -/
def getEnc (flags : Nat) (b : List UInt8) : Option (EncItem × List UInt8) := do
  let (iv, b) ← raw 8 b
  let (n, b) ← opt (flags &&& 2 != 0) 2 b
  let (s, b) ← getSubs (n.getD 0) b
  some (⟨iv, s⟩, b)

def getEncs (flags : Nat) : Nat → List UInt8 → Option (List EncItem × List UInt8)
  | 0, b => some ([], b)
  | n + 1, b => do
    let (i, b) ← getEnc flags b
    let (is, b) ← getEncs flags n b
    some (i :: is, b)

/-- `_senc.cleanup()` and `SampleEncryptionBox::get`, mp4/cenc.fl 187-222. -/
def getSenc (r : Rd) (b : List UInt8) : Option (Rd × List UInt8) := do
  let (_, fl, b) ← full b
  let (n, b) ← num 4 b
  let (es, b) ← getEncs fl n b
  some ({ r with hasSenc := true, senc := es }, b)

/-- `SampleAuxiliaryInformationSizesBox::get`, mp4/cenc.fl 227-251 (what is left after it). -/
def getSaiz (b : List UInt8) : Option (List UInt8) := do
  let (_, fl, b) ← full b
  let (_, b) ← opt (fl &&& 1 != 0) 8 b
  let (d, b) ← num 1 b
  let (n, b) ← num 4 b
  let (_, b) ← raw (if d = 0 then n else 0) b
  some b

/-- `SampleAuxiliaryInformationOffsetsBox::get`, mp4/cenc.fl 255-284 (what is left after it). -/
def getSaio (b : List UInt8) : Option (List UInt8) := do
  let (v, fl, b) ← full b
  let (_, b) ← opt (fl &&& 1 != 0) 8 b
  let (n, b) ← num 4 b
  let (_, b) ← raw (if v = 0 then 4 * n else 8 * n) b
  some b

/-- `TrackEncryptionBox::get`, mp4/cenc.fl 85-127 (what is left after it). -/
def getTenc (b : List UInt8) : Option (List UInt8) := do
  let (_, _, b) ← full b
  let (_, b) ← raw 2 b
  let (p, b) ← num 1 b
  let (s, b) ← num 1 b
  let (_, b) ← raw 16 b
  if p = 1 ∧ s = 0 then do
    let (k, b) ← num 1 b
    let (_, b) ← raw k b
    some b
  else some b

/-- User types of tfxd and tfrf, MOOFReader.h 126, 136. -/
def tfxdGuid : List UInt8 := [0x6D, 0x1D, 0x9B, 0x05, 0x42, 0xD5, 0x44, 0xE6, 0x80, 0xE2, 0x14, 0x1D, 0xAF, 0xF7, 0x57, 0xB2]
def tfrfGuid : List UInt8 := [0xD4, 0x80, 0x7E, 0xF2, 0xCA, 0x39, 0x46, 0x95, 0x8E, 0x54, 0x26, 0xCB, 0x9E, 0x46, 0xA7, 0x9F]

/-- The case `box_uuid`, MOOFReader.h 113-158, and `SSFLIVE_BODY::get`, mp4/mp4_fragments.fl 307-322: what is left after it; other user types are not skipped. -/
def getUuid (guid b : List UInt8) : Option (List UInt8) :=
  if guid = tfxdGuid then do
    let (v, _, b) ← full b
    let (_, b) ← raw (if v = 1 then 16 else 8) b
    some b
  else if guid = tfrfGuid then do
    let (v, _, b) ← full b
    let (n, b) ← num 1 b
    let (_, b) ← raw (n * if v = 1 then 16 else 8) b
    some b
  else some b

/-- `skip_current`, mp4parse.h 576-580. -/
def Head.skip (h : Head) (b : List UInt8) : List UInt8 := b.drop ((h.getSize + 2 ^ 64 - 8) % 2 ^ 64)

/-- The position when `b` is left of the file. -/
def posOf (file b : List UInt8) : Nat := file.length - b.length

/-- What `parse_boxes` does with the box at `pos`, MOOFReader.h 62-164: reader and position after it. -/
def handle (file : List UInt8) (r : Rd) (pos : Nat) : Option (Rd × Nat) := do
  let (h, b) ← getBox (file.drop pos)
  match kind h.type with
  | .free => some (r, (pos + h.getSize) % 2 ^ 64)
  | .moof => some ({ r with moof := pos }, posOf file b)
  | .traf => some (r, posOf file b)
  | .tfhd => (getTfhd r b).map fun x => (x.1, posOf file x.2)
  | .mfhd => do
    let (_, _, b) ← full b
    let (_, b) ← num 4 b
    some (r, posOf file b)
  | .tfdt => (getTfdt r b).map fun x => (x.1, posOf file x.2)
  | .trun => (getTrun r b).map fun x => (x.1, posOf file x.2)
  | .mdat => some ({ r with mdat := posOf file b }, posOf file (h.skip b))
  | .skipped => some (r, posOf file (h.skip b))
  | .saio => (getSaio b).map fun b => (r, posOf file b)
  | .saiz => (getSaiz b).map fun b => (r, posOf file b)
  | .tenc => (getTenc b).map fun b => (r, posOf file b)
  | .senc => (getSenc r b).map fun x => (x.1, posOf file x.2)
  | .uuid => (getUuid h.guid b).map fun b => (r, posOf file b)
  | .unknown => some (r, posOf file (h.skip b))

/-- `do_box` (mp4parse.h 547-559) and `parse_boxes` with its recursion, MOOFReader.h 60-171; `none` also when the calls do not end within `fuel`. -/
def loop (file : List UInt8) (strict : Bool) : (fuel : Nat) → Rd → Nat → Option (Rd × Nat)
  | 0, _, _ => none
  | fuel + 1, r, pos =>
    if file.length ≤ pos then some (r, pos)
    else (handle file r pos).bind fun x => if x.1.mdat ≠ 0 ∧ strict = false then some x else loop file strict fuel x.1 x.2

/-- `parse(mp4, false)`, MOOFReader.h 196-216. -/
def parse (file : List UInt8) (fuel : Nat) (r : Rd) (pos : Nat) : Option (Rd × Nat) := loop file false fuel { r with mdat := 0 } pos

/-- `parse(mp4)`, MOOFReader.h 196-216, from the start; the first box must be a moof (`MP4CHECK`, mp4parse.h 69). `_mdat_position` keeps what it had. -/
def parseStrict (file : List UInt8) (fuel : Nat) (r : Rd) : Option (Rd × Nat) := do
  let (h, _) ← getBox file
  if h.type ≠ fourcc 'm' 'o' 'o' 'f' then none else loop file true fuel r 0

/-- `(int)t` of an unsigned 32 bit value. -/
def int32 (n : Nat) : Int := signed32 (n % 2 ^ 32)

/-- An unsigned 64 bit value as `int64_t`, and back. -/
def int64 (n : Nat) : Int := if n % 2 ^ 64 < 2 ^ 63 then (n % 2 ^ 64 : Nat) else ((n % 2 ^ 64 : Nat) : Int) - 2 ^ 64
def uint64 (x : Int) : Nat := (x % 2 ^ 64).toNat

/-- `get_base_offset()`, MOOFReader.h 239-250. -/
def Rd.baseOffset (r : Rd) : Nat := if r.flags &&& 1 ≠ 0 then uint64 (int32 r.dataOffset + r.moof) else r.mdat

/-- `TrackFragmentBaseMediaDecode()` as `int64_t`, MOOFReader.h 229-237. -/
def Rd.baseTime (r : Rd) : Int := if r.hasBase then int64 r.base else int64 (2 ^ 64 - 1)

/-- `get_sample_composition_time_offset(idx, true)`, MOOFReader.h 254-268. -/
def Rd.offset (r : Rd) (i : RunItem) : Int := if r.flags &&& 0x800 ≠ 0 then int32 i.offset else 0

/-- `get_sample_duration`, MOOFReader.h 270-281. -/
def Rd.duration (r : Rd) (i : RunItem) : Int := if r.flags &&& 0x100 ≠ 0 then int32 i.duration else r.defDuration

/-- `get_sample_size`, MOOFReader.h 283-289 (cut to 32 bits in mp4info.cpp 4092). -/
def Rd.size (r : Rd) (i : RunItem) : Nat := if r.flags &&& 0x200 ≠ 0 then i.size else r.defSize

/-- The loop over the sub-samples in `decrypt`, mp4info.cpp 3846-3884: `used` bytes of the key stream are consumed (the library goes on within a block). The sub-samples must
make up the sample (otherwise memory outside the buffers is read, or the end of the sample is not written). -/
def decryptSubs (stream : List UInt8) : List (Nat × Nat) → (used : Nat) → List UInt8 → Option (List UInt8)
  | [], _, src => if src = [] then some [] else none
  | (c, p) :: subs, used, src =>
    if src.length < c + p then none
    else (decryptSubs stream subs (used + p) (src.drop (c + p))).map fun out =>
      src.take c ++ List.zipWith (· ^^^ ·) ((src.drop c).take p) (stream.drop used) ++ out

/-- `decrypt`, mp4info.cpp 3816-3900, with the block cipher `E` of the key; counter mode as in the module Cenc. -/
def decryptSample (E : List UInt8 → List UInt8) (e : EncItem) (src : List UInt8) : Option (List UInt8) :=
  let iv := e.iv ++ List.replicate 8 0
  let stream := Cenc.keyStream E ((src.length + 15) / 16) iv
  if e.subs = [] then some (Cenc.ctr E iv src) else decryptSubs stream e.subs 0 src

/-- A call of `add_sample`. -/
structure Out where
  body : List UInt8
  sync : Bool
  composition : Int
  decoding : Int
  duration : Int
deriving DecidableEq, Repr

/-- What the command is given for a stream: the key, whether the stream is audio, its time scale, and `normalize_time` (mp4info.cpp 3801-3809, double arithmetic) for it. -/
structure Opts where
  key : Option (List UInt8 → List UInt8)
  audio : Bool
  timescale : Nat
  norm : Nat → Nat

/-- mp4info.cpp 4107-4112. -/
def Opts.time (o : Opts) (t : Int) : Int := if o.timescale ≠ 10000000 then int64 (o.norm (uint64 t)) else t

/-- The sample as it is read and, if there is a key and a senc box was met, decrypted, mp4info.cpp 4126-4141. -/
def sampleBody (o : Opts) (r : Rd) (n : Nat) (data : List UInt8) : Option (List UInt8) :=
  match o.key with
  | none => some data
  | some E => if r.hasSenc then (r.senc[n]?).bind fun e => decryptSample E e data else some data

/-- The loop over the samples of a fragment, mp4info.cpp 4090-4149; sample `n`, at `position`. -/
def samples (o : Opts) (file : List UInt8) (r : Rd) : List RunItem → (n position : Nat) → (decoding : Int) → Option (List Out)
  | [], _, _, _ => some []
  | i :: is, n, position, decoding => do
    let size := r.size i
    let (data, _) ← raw size (file.drop position)
    let body ← sampleBody o r n data
    let rest ← samples o file r is (n + 1) ((position + size) % 2 ^ 64) (decoding + r.duration i)
    some (⟨body, n == 0 || o.audio, o.time (decoding + r.offset i), o.time decoding, o.time (r.duration i)⟩ :: rest)

/-- The loop over the fragments of a file, mp4info.cpp 4056-4157: the reader after `parse` and its position. -/
def fragments (o : Opts) (file : List UInt8) (fuel : Nat) : (n : Nat) → Rd → Nat → Option (List Out)
  | 0, _, _ => none
  | n + 1, r, pos =>
    if r.mdat = 0 then some []
    else do
      let out ← samples o file r r.run 0 r.baseOffset r.baseTime
      let (r, pos) ← parse file fuel r pos
      let rest ← fragments o file fuel n r pos
      some (out ++ rest)

/-- A file of a stream, mp4info.cpp 4048-4157; `fuel` bounds the boxes of a call of `parse` and the fragments. -/
def moofMux (o : Opts) (fuel : Nat) (moof off : Nat) (file : List UInt8) : Option (List Out) := do
  let (r, pos) ← parse file fuel (Rd.new moof off) 0
  fragments o file fuel fuel r pos

end Verif.Moof

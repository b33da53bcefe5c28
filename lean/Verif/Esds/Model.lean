import Verif.H264.Model
import Verif.TsMux.Model

/-
Model of the `esds` box of an audio stream: the MPEG-4 descriptors (src/mg/media/mp4/mpeg4_odf.fl), the AAC configuration in them
(src/mg/media/mp4/aac.fl), how the mp4 writer makes the box (src/mg/media/mp4write.h) and how the mp4 parser reads it (src/mg/media/mp4parse.h).
The `get` functions are readers as in `Verif.H264`, on the bit reader of `Verif.BitStream`. Everything starts at a byte boundary, so
the `aligned(8)` of the classes does nothing.
-/
namespace Verif.Esds
open Verif.BitStream (Byte Mem RErr RState rInit nextbits skipbits)
open Verif.H264 (Parser u many opt)

/-! ### Reading -/

/-- `nextbits`: a look at the next bits. -/
def peek (n : Nat) : Parser Nat := fun s =>
  match nextbits s n with
  | .error e => .error e
  | .ok x => .ok (x.toNat, s)

/-- src/mg/core/bitstream.h 566-574, 1134: `eof` of the reader on fixed memory. -/
def atEnd : Parser Bool := fun s => .ok (decide (8 * s.len ≤ s.cur), s)

/-- `skipbits`. -/
def skip (n : Nat) : Parser Unit := fun s => .ok ((), skipbits s n)

/-- src/mg/media/mp4/mpeg4_odf.fl 79-90: the loop that reads the length; `size` has 32 bits. It ends at the latest when the reader throws. -/
def lengthLoop : Nat → Nat → Parser Nat
  | 0, _ => fun _ => .error .ub
  | fuel + 1, size => do
    let b ← u 8
    let size := size * 128 % 2 ^ 32 + b % 128
    if 128 ≤ b then lengthLoop fuel size else return size

/-- src/mg/media/mp4/mpeg4_odf.fl 56-95: reading a `descriptor`, its tag and its length. The length is converted to `int`; what is negative then is undefined
here (it is the size of an allocation, or it is not used). -/
def descriptor : Parser (Nat × Nat) := do
  let tag ← u 8
  let s ← get
  let length ← lengthLoop (8 * s.len + 1) 0
  if 2 ^ 31 ≤ length then throw .ub
  return (tag, length)

/-- src/mg/media/mp4/mpeg4_odf.fl 165-235: the members of `extension_descriptor`. -/
structure Extension where
  tag : Nat
  length : Nat
  data : List Nat
  deriving DecidableEq

/-- src/mg/media/mp4/mpeg4_odf.fl 172-213: `extension_descriptor`. With the tags 0xD0 to 0xE0 there are more bytes of length; a negative size is undefined. -/
def extension : Parser Extension := do
  let (tag, length) ← descriptor
  if 0xD0 ≤ tag ∧ tag ≤ 0xDF then do
    let l2 ← u 8
    if length < 1 then throw .ub
    let data ← many (u 8) (length - 1)
    return ⟨tag, length * 2 ^ 8 % 2 ^ 32 + l2, data⟩
  else if tag = 0xE0 then do
    let l2 ← u 24
    if length < 3 then throw .ub
    let data ← many (u 8) (length - 3)
    return ⟨tag, length * 2 ^ 24 % 2 ^ 32 + l2, data⟩
  else do
    let data ← many (u 8) length
    return ⟨tag, length, data⟩

/-- src/mg/media/mp4/mpeg4_odf.fl 237-275: the members of `DecoderConfigDescriptor`. -/
structure DecoderConfig where
  objectProfile : Nat
  streamType : Nat
  upStream : Nat
  bufferSizeDB : Nat
  maxBitrate : Nat
  avgBitrate : Nat
  ext : List Extension
  deriving DecidableEq

/-- src/mg/media/mp4/mpeg4_odf.fl 256-262: the loop over the decoder specific information. -/
def dsiLoop : Nat → Parser (List Extension)
  | 0 => fun _ => .error .ub
  | fuel + 1 => do
    let t ← peek 8
    if t = 5 then do
      let e ← extension
      let es ← dsiLoop fuel
      return e :: es
    else return []

/-- src/mg/media/mp4/mpeg4_odf.fl 237-262: `DecoderConfigDescriptor::get`. The tag and the reserved bit are not checked, the length is not used. -/
def decoderConfig : Parser DecoderConfig := do
  let _ ← descriptor
  let profile ← u 8
  let stream ← u 6
  let up ← u 1
  let _ ← u 1
  let buffer ← u 24
  let max ← u 32
  let avg ← u 32
  let s ← get
  let ext ← dsiLoop (8 * s.len + 1)
  return ⟨profile, stream, up, buffer, max, avg, ext⟩

/-- src/mg/media/mp4/mpeg4_odf.fl 312-342: the part of `SLConfigDescriptor` that is there when `predefined` is 0. The values are not used. -/
def slCustom : Parser Unit := do
  let _ ← many (u 1) 4
  let stamps ← u 1
  let wall ← u 1
  let _ ← u 1
  let duration ← u 1
  let _ ← many (u 32) 2
  let stampLength ← u 8
  let _ ← many (u 8) 3
  let _ ← many (u 4) 2
  let _ ← opt (duration ≠ 0) do
    let _ ← u 32
    many (u 16) 2
  let _ ← opt (stamps = 0) do
    let _ ← opt (wall ≠ 0) (many (u 32) 2)
    many (u stampLength) 2
  let ocr ← u 1
  let _ ← u 7
  let _ ← opt (ocr ≠ 0) (u 16)
  return ()

/-- src/mg/media/mp4/mpeg4_odf.fl 307-342: `SLConfigDescriptor::get`; gives `predefined`. -/
def slConfig : Parser Nat := do
  let _ ← descriptor
  let predefined ← u 8
  let _ ← opt (predefined = 0) slCustom
  return predefined

/-- A byte with a length, and as many bytes. -/
def counted : Parser (List Nat) := do
  let n ← u 8
  many (u 8) n

/-- src/mg/media/mp4/mpeg4_odf.fl 344-371: `IP_IdentificationDataSet::get`. The values are not used. -/
def ipIdentification : Parser Unit := do
  let _ ← descriptor
  let _ ← u 2
  let content ← u 1
  let ident ← u 1
  let _ ← skip 4
  let count ← u 8
  let _ ← opt (content ≠ 0) (u 8)
  let _ ← opt (ident ≠ 0) do
    let _ ← u 8
    counted
  let _ ← opt (0 < count) do
    let _ ← u 24
    many (do
      let _ ← counted
      counted) count
  return ()

/-- src/mg/media/mp4/mpeg4_odf.fl 378-396: `QoS_Descriptor::get`. -/
def qos : Parser Unit := do
  let _ ← descriptor
  let predefined ← u 8
  let _ ← opt (predefined = 0) do
    let count ← u 8
    many (do
      let _ ← u 8
      counted) count
  return ()

/-- src/mg/media/mp4/mpeg4_odf.fl 425-437: the loop over extension descriptors. -/
def extLoop : Nat → Parser (List Extension)
  | 0 => fun _ => .error .ub
  | fuel + 1 => do
    let t ← peek 8
    if (0x80 ≤ t ∧ t ≤ 0xAF) ∨ (0xD0 ≤ t ∧ t ≤ 0xDF) then do
      let e ← extension
      if ← atEnd then return [e]
      let es ← extLoop fuel
      return e :: es
    else return []

/-- src/mg/media/mp4/mpeg4_odf.fl 439-483: an optional part: if there is more data and the next byte is the tag. -/
def tagged {α : Type} (tag : Nat) (p : Parser α) : Parser (Option α) := do
  if ← atEnd then return none
  let t ← peek 8
  if t = tag then do
    let x ← p
    return some x
  else return none

/-- src/mg/media/mp4/mpeg4_odf.fl 400-485: the members of `ES_Descriptor` that are used. -/
structure Es where
  esId : Nat
  dependsOn : Option Nat
  url : Option (List Nat)
  ocr : Option Nat
  priority : Nat
  decoder : Option DecoderConfig
  sl : Option Nat
  deriving DecidableEq

/-- src/mg/media/mp4/mpeg4_odf.fl 400-485: `ES_Descriptor::get`. The tag is not checked and the length is not used. -/
def esDescriptor : Parser Es := do
  let _ ← descriptor
  let id ← u 16
  let dep ← u 1
  let hasUrl ← u 1
  let hasOcr ← u 1
  let priority ← u 5
  let dependsOn ← opt (dep ≠ 0) (u 16)
  let url ← opt (hasUrl ≠ 0) counted
  let ocr ← opt (hasOcr ≠ 0) (u 16)
  let s ← get
  let _ ← extLoop (8 * s.len + 1)
  let _ ← tagged 0x43 (do
    let _ ← descriptor
    u 24)
  let decoder ← tagged 0x04 decoderConfig
  let sl ← tagged 0x06 slConfig
  let _ ← tagged 0x12 (do
    let _ ← descriptor
    u 16)
  let _ ← tagged 0x26 ipIdentification
  let _ ← tagged 0x0C qos
  return ⟨id, dependsOn, url, ocr, priority, decoder, sl⟩

/-- src/mg/media/mp4/aac.fl 84-118: the members of `aac_info_mp4`. -/
structure Aac where
  objectType : Nat
  sampleRate : Nat
  channels : Nat
  frameLengthFlag : Nat
  dependsCoreCoder : Nat
  coreCoderDelay : Nat
  extensionFlag : Nat
  deriving DecidableEq

/-- src/mg/media/mp4/aac.fl 57-82: a value of a map; the codes are those of `Verif.TsMux`. A code that is not in the map has no value (what flavor generates for it is not
modelled). -/
def mapped (n : Nat) (l : List Nat) : Parser Nat := do
  let i ← u n
  match l[i]? with
  | some v => return v
  | none => throw .ub

/-- src/mg/media/mp4/aac.fl 84-107: `aac_info_mp4::get`. -/
def aacInfo : Parser Aac := do
  let t ← u 5
  let t ← (if t = 31 then u 32 else pure t : Parser Nat)
  let rate ← mapped 4 Verif.TsMux.sampleRates
  let _ ← u 1
  let channels ← mapped 3 Verif.TsMux.channelCodes
  if t = 1 ∨ t = 2 then do
    let f ← u 1
    if f = 0 then do
      let d ← u 1
      let delay ← opt (d ≠ 0) (u 14)
      let e ← u 1
      return ⟨t, rate, channels, f, d, delay.getD 0, e⟩
    else do
      skip 2
      return ⟨t, rate, channels, f, 0, 0, 0⟩
  else do
    skip 3
    return ⟨t, rate, channels, 0, 0, 0, 0⟩

/-- How reading an audio entry fails: the reader throws (or is undefined), there is no configuration (ALXTHROW), or a pointer that was never set is used. -/
inductive Failure
  | reader (e : RErr)
  | noConfig
  | badPointer
  deriving DecidableEq

/-- src/mg/media/mp4parse.h 1774-1800: the body of an audio sample entry. The type of the box is not checked. `p_ext` is the last of the decoder specific
descriptors; `beyond` and `beyond'` is the memory after the two buffers. -/
def parseAudioBody (beyond beyond' : Mem) (body : List Byte) : Except Failure Aac :=
  let p : Parser Es := do
    let _ ← u 32
    let _ ← u 32
    skip 32
    esDescriptor
  match p (rInit body beyond) with
  | .error e => .error (.reader e)
  | .ok (es, _) =>
    match es.decoder with
    | none => .error .badPointer
    | some d =>
      match d.ext.getLast? with
      | none => .error .badPointer
      | some e =>
        if e.length = 0 then .error .noConfig
        else
          match aacInfo (rInit (e.data.map (BitVec.ofNat 8)) beyond') with
          | .error e => .error (.reader e)
          | .ok (a, _) => .ok a

/-! ### Writing -/

/-- What `putbits` adds to the output for a field: the low bits of the value (that is what the bit writer does, `Verif.BitStream`). -/
def field (x : Nat × Nat) : List Bool := (List.range x.1).map fun i => x.2.testBit (x.1 - 1 - i)

/-- The bytes of the output. -/
def pack : List Bool → List Byte
  | a :: b :: c :: d :: e :: f :: g :: h :: rest =>
    BitVec.ofNat 8 (128 * a.toNat + 64 * b.toNat + 32 * c.toNat + 16 * d.toNat + 8 * e.toNat + 4 * f.toNat + 2 * g.toNat + h.toNat) :: pack rest
  | _ => []

/-- src/mg/media/mp4/mpeg4_odf.fl 58, 97-143: a `descriptor` is written with 4 bytes of length. -/
def putDescriptor (tag length : Nat) : List (Nat × Nat) :=
  [(8, tag), (8, length / 2 ^ 21 % 128 + 128), (8, length / 2 ^ 14 % 128 + 128), (8, length / 2 ^ 7 % 128 + 128), (8, length % 128)]

/-- src/mg/media/mp4/mpeg4_odf.fl 400-420, 487-490, 555-605: `put` of an `ES_Descriptor` after `set_extension`. -/
def putEs (dsi : List Byte) (profile stream up buffer max avg : Nat) : List (Nat × Nat) :=
  let dcdLength := 13 + 5 + dsi.length
  putDescriptor 3 (3 + 1 + dcdLength + 10) ++ [(16, 0), (1, 0), (1, 0), (1, 0), (5, 0)] ++
    (putDescriptor 4 dcdLength ++ [(8, profile), (6, stream), (1, up), (1, 1), (24, buffer), (32, max), (32, avg)] ++
      (putDescriptor 5 dsi.length ++ dsi.map fun x => (8, x.toNat))) ++
    (putDescriptor 6 1 ++ [(8, 2)])

/-- src/mg/media/mp4/aac.fl 84-107: `put` of an `aac_info_mp4` made by `add_audio_stream`, whose flags are all 0, for the object types 1 and 2. (For others
there are `skipbits` on the writer, which are not modelled: `none`.) -/
def putAac (objectType rate channels : Nat) : Option (List (Nat × Nat)) :=
  if objectType = 1 ∨ objectType = 2 then
    some [(5, objectType), (4, Verif.TsMux.sampleRates.idxOf rate), (1, 0), (3, Verif.TsMux.channelCodes.idxOf channels), (1, 0), (1, 0), (1, 0)]
  else none

/-- src/mg/media/mp4write.h 2019-2066: the `esds` box made by `add_audio_stream`. The size is put at the start in the end. -/
def audioEsds (objectType rate channels bitRate : Nat) : Option (List Byte) :=
  match putAac objectType rate channels with
  | none => none
  | some aac =>
    let es := (putEs (pack (aac.flatMap field)) 0x40 5 0 850 ((bitRate + 100000) % 2 ^ 32) bitRate).flatMap field
    some (pack ([(32, 12 + (pack es).length), (32, 0x65736473), (32, 0)].flatMap field ++ es))

/-- src/mg/media/mp4write.h 2074-2087: `add_audio_stream` with codec private data: it is read, and only the type, the rate and the channels are kept. -/
def audioEsdsFrom (beyond : Mem) (private_ : List Byte) (bitRate : Nat) : Option (List Byte) :=
  match aacInfo (rInit private_ beyond) with
  | .error _ => none
  | .ok (a, _) => audioEsds a.objectType a.sampleRate a.channels bitRate

end Verif.Esds

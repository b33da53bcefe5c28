import Verif.H264.Spec

/-
ISO/IEC 14496-1, 7.2.6 and 8.3.3: object descriptors with lengths of any number of bytes; ISO/IEC 14496-3, 1.6.2.1: AudioSpecificConfig;
ISO/IEC 14496-14: the esds box. Written as the bits that a writer of such a file produces.
-/
namespace Verif.Esds.Spec
open Verif.H264.Spec (bits flagBits Bytes)

/-- 8.3.3: a length in `k` bytes: 7 bits in each, the first bit says whether there are more. -/
def lengthBits (k v : Nat) : List Bool := (List.range k).flatMap fun i => flagBits (i + 1 < k) ++ bits 7 (v / 128 ^ (k - 1 - i) % 128)

/-- A descriptor whose length has `k` bytes. -/
def desc (tag k : Nat) (payload : List Bool) : List Bool := bits 8 tag ++ (lengthBits k (payload.length / 8) ++ payload)

/-- The length fits. -/
def DescOk (k : Nat) (payload : List Bool) : Prop := 1 ≤ k ∧ payload.length / 8 < 128 ^ k ∧ payload.length / 8 < 2 ^ 31

/-- The sampling frequencies of the codes 0 to 12. -/
def frequencies : List Nat := [96000, 88200, 64000, 48000, 44100, 32000, 24000, 22050, 16000, 12000, 11025, 8000, 7350]

/-- The number of channels of the configurations 0 to 7 (0: defined elsewhere). -/
def channelCounts : List Nat := [0, 1, 2, 3, 4, 5, 6, 8]

/-- GASpecificConfig, of the object types 1 to 4 among others, without a program config element. -/
structure Ga where
  shortFrames : Bool
  coreCoderDelay : Option Nat
  extension : Bool

def delayBits : Option Nat → List Bool
  | none => flagBits false
  | some d => flagBits true ++ bits 14 d

def gaBits (g : Ga) : List Bool := flagBits g.shortFrames ++ (delayBits g.coreCoderDelay ++ flagBits g.extension)

/-- AudioSpecificConfig. -/
structure AudioConfig where
  /-- 1 (main), 2 (low complexity), and the others up to 30 -/
  objectType : Nat
  frequencyIndex : Nat
  channelConfiguration : Nat
  ga : Ga
  /-- What follows: the specific configuration of other object types, extensions, and padding. -/
  more : List Bool

def audioBits (a : AudioConfig) : List Bool :=
  bits 5 a.objectType ++ (bits 4 a.frequencyIndex ++ (bits 4 a.channelConfiguration ++ ((if a.objectType = 1 ∨ a.objectType = 2 then gaBits a.ga else []) ++ a.more)))

def AudioConfig.ok (a : AudioConfig) : Prop :=
  1 ≤ a.objectType ∧ a.objectType < 31 ∧ a.frequencyIndex < 13 ∧ a.channelConfiguration < 8 ∧ (∀ d, a.ga.coreCoderDelay = some d → d < 2 ^ 14) ∧
    (¬ (a.objectType = 1 ∨ a.objectType = 2) → 3 ≤ a.more.length)

def AudioConfig.frequency (a : AudioConfig) : Nat := frequencies.getD a.frequencyIndex 0
def AudioConfig.channels (a : AudioConfig) : Nat := channelCounts.getD a.channelConfiguration 0

/-- 7.2.6.6. -/
structure Decoder where
  objectType : Nat
  streamType : Nat
  upStream : Bool
  bufferSizeDB : Nat
  maxBitrate : Nat
  avgBitrate : Nat
  /-- How many bytes there are for the length of the decoder specific information. -/
  infoForm : Nat
  info : List (BitVec 8)
  /-- profileLevelIndicationIndexDescriptors. -/
  levels : List Nat

/-- The bits of some bytes. -/
def byteBits (l : List (BitVec 8)) : List Bool := l.flatMap fun x => bits 8 x.toNat

def decoderBits (d : Decoder) : List Bool :=
  bits 8 d.objectType ++ (bits 6 d.streamType ++ (flagBits d.upStream ++ (flagBits true ++ (bits 24 d.bufferSizeDB ++ (bits 32 d.maxBitrate ++
    (bits 32 d.avgBitrate ++ (desc 5 d.infoForm (byteBits d.info) ++ d.levels.flatMap fun l => desc 0x14 1 (bits 8 l))))))))

def Decoder.ok (d : Decoder) : Prop :=
  d.objectType < 256 ∧ d.streamType < 64 ∧ d.bufferSizeDB < 2 ^ 24 ∧ d.maxBitrate < 2 ^ 32 ∧ d.avgBitrate < 2 ^ 32 ∧ DescOk d.infoForm (byteBits d.info)

/-- 7.2.6.5. -/
structure Es where
  id : Nat
  dependsOn : Option Nat
  url : Option (List (BitVec 8))
  ocr : Option Nat
  priority : Nat
  decoderForm : Nat
  decoder : Decoder
  slForm : Nat
  /-- 2 in mp4 files. -/
  slPredefined : Nat
  /-- Other descriptors. -/
  others : List Bool

def ifPresent {α : Type} (f : α → List Bool) : Option α → List Bool
  | none => []
  | some x => f x

def esBits (e : Es) : List Bool :=
  bits 16 e.id ++ (flagBits e.dependsOn.isSome ++ (flagBits e.url.isSome ++ (flagBits e.ocr.isSome ++ (bits 5 e.priority ++ (ifPresent (bits 16) e.dependsOn ++
    (ifPresent (fun l => bits 8 l.length ++ byteBits l) e.url ++ (ifPresent (bits 16) e.ocr ++ (desc 4 e.decoderForm (decoderBits e.decoder) ++
      (desc 6 e.slForm (bits 8 e.slPredefined) ++ e.others)))))))))

def Es.ok (e : Es) : Prop :=
  e.id < 2 ^ 16 ∧ e.priority < 32 ∧ (∀ x, e.dependsOn = some x → x < 2 ^ 16) ∧ (∀ x, e.url = some x → x.length < 256) ∧ (∀ x, e.ocr = some x → x < 2 ^ 16) ∧
    DescOk e.decoderForm (decoderBits e.decoder) ∧ DescOk e.slForm (bits 8 e.slPredefined) ∧ e.decoder.ok ∧ 1 ≤ e.slPredefined ∧ e.slPredefined < 256

/-- The bits of an `esds` box. -/
def esdsBits (form : Nat) (e : Es) : List Bool :=
  bits 32 (12 + (desc 3 form (esBits e)).length / 8) ++ (bits 32 0x65736473 ++ (bits 32 0 ++ desc 3 form (esBits e)))

/-- The tag that comes next in some bits: nothing at the end. -/
def nextTag (b : List Bool) : Option Nat → Prop
  | none => b = []
  | some t => t < 256 ∧ ∃ rest, b = bits 8 t ++ rest

end Verif.Esds.Spec

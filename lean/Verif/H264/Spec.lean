import Mathlib.Data.List.Basic

/-
ITU-T H.264: byte stream escaping (7.3.1, 7.4.1.1), Exp-Golomb codes (9.1), and the syntax of the sequence parameter set (7.3.2.1.1) with the
video usability information (Annex E), without scaling lists. Written as the bits an encoder produces.
-/
namespace Verif.H264.Spec

/-- The bytes after a NAL unit header for a payload, after `zeros` zero bytes: a byte 3 comes after two zero bytes before any byte up to 3. -/
def escapeFrom (zeros : Nat) : List (BitVec 8) → List (BitVec 8)
  | [] => []
  | b :: rest =>
    if 2 ≤ zeros ∧ b.toNat ≤ 3 then 3 :: b :: escapeFrom (if b = 0 then 1 else 0) rest
    else b :: escapeFrom (if b = 0 then zeros + 1 else 0) rest

/-- 7.4.1.1: a payload that ends in a zero byte gets a final byte 3. -/
def escape (payload : List (BitVec 8)) : List (BitVec 8) :=
  escapeFrom 0 payload ++ if payload.getLast? = some 0 then [3] else []

/-- The `n` bits of a number. -/
def bits (n v : Nat) : List Bool := (List.range n).map fun i => v.testBit (n - 1 - i)

/-- 9.1: `ue(v)`: as many zeros as there are bits after the first in `v + 1`, and `v + 1`. -/
def ueBits (v : Nat) : List Bool := List.replicate (Nat.log2 (v + 1)) false ++ bits (Nat.log2 (v + 1) + 1) (v + 1)

/-- 9.1.1: `se(v)`. -/
def seBits (v : Int) : List Bool := ueBits (if 0 < v then 2 * v.toNat - 1 else 2 * (-v).toNat)

/-- A flag. -/
def flagBits (b : Bool) : List Bool := [b]

/-- A flag, and something if it is set. -/
def optBits {α : Type} (f : α → List Bool) : Option α → List Bool
  | none => [false]
  | some x => true :: f x

/-- E.1.2. -/
structure Hrd where
  bitRateScale : Nat
  cpbSizeScale : Nat
  /-- The first one, and the others. -/
  cpb : (Nat × Nat × Bool) × List (Nat × Nat × Bool)
  initialCpbRemovalDelayLengthMinus1 : Nat
  cpbRemovalDelayLengthMinus1 : Nat
  dpbOutputDelayLengthMinus1 : Nat
  timeOffsetLength : Nat

def cpbBits (x : Nat × Nat × Bool) : List Bool := ueBits x.1 ++ (ueBits x.2.1 ++ flagBits x.2.2)

def hrdBits (h : Hrd) : List Bool :=
  ueBits h.cpb.2.length ++ (bits 4 h.bitRateScale ++ (bits 4 h.cpbSizeScale ++ ((h.cpb.1 :: h.cpb.2).flatMap cpbBits ++
    (bits 5 h.initialCpbRemovalDelayLengthMinus1 ++ (bits 5 h.cpbRemovalDelayLengthMinus1 ++ (bits 5 h.dpbOutputDelayLengthMinus1 ++
      bits 5 h.timeOffsetLength))))))

/-- 1 (square samples) to 254, or a ratio. -/
inductive Aspect
  | idc (n : Nat)
  | sar (w h : Nat)

def aspectBits : Aspect → List Bool
  | .idc n => bits 8 n
  | .sar w h => bits 8 255 ++ (bits 16 w ++ bits 16 h)

structure Signal where
  format : Nat
  fullRange : Bool
  colour : Option (Nat × Nat × Nat)

def colourBits (c : Nat × Nat × Nat) : List Bool := bits 8 c.1 ++ (bits 8 c.2.1 ++ bits 8 c.2.2)

def signalBits (x : Signal) : List Bool := bits 3 x.format ++ (flagBits x.fullRange ++ optBits colourBits x.colour)

/-- max_bytes_per_pic_denom, max_bits_per_mb_denom, log2_max_mv_length_horizontal, log2_max_mv_length_vertical, max_num_reorder_frames,
max_dec_frame_buffering. -/
structure Restriction where
  overBoundaries : Bool
  maxBytes : Nat
  maxBits : Nat
  mvHorizontal : Nat
  mvVertical : Nat
  reorder : Nat
  buffering : Nat

def restrictionBits (r : Restriction) : List Bool :=
  flagBits r.overBoundaries ++ (ueBits r.maxBytes ++ (ueBits r.maxBits ++ (ueBits r.mvHorizontal ++ (ueBits r.mvVertical ++
    (ueBits r.reorder ++ ueBits r.buffering)))))

/-- E.1.1. -/
structure Vui where
  aspect : Option Aspect
  overscan : Option Bool
  signal : Option Signal
  chromaLoc : Option (Nat × Nat)
  /-- num_units_in_tick, time_scale, fixed_frame_rate_flag -/
  timing : Option (Nat × Nat × Bool)
  nalHrd : Option Hrd
  vclHrd : Option Hrd
  /-- Present if there are HRD parameters. -/
  lowDelay : Bool
  picStruct : Bool
  restriction : Option Restriction

def chromaLocBits (c : Nat × Nat) : List Bool := ueBits c.1 ++ ueBits c.2

def timingBits (t : Nat × Nat × Bool) : List Bool := bits 32 t.1 ++ (bits 32 t.2.1 ++ flagBits t.2.2)

def vuiBits (v : Vui) : List Bool :=
  optBits aspectBits v.aspect ++ (optBits flagBits v.overscan ++ (optBits signalBits v.signal ++ (optBits chromaLocBits v.chromaLoc ++
    (optBits timingBits v.timing ++ (optBits hrdBits v.nalHrd ++ (optBits hrdBits v.vclHrd ++
      ((if v.nalHrd.isSome || v.vclHrd.isSome then flagBits v.lowDelay else []) ++ (flagBits v.picStruct ++
        optBits restrictionBits v.restriction))))))))

/-- The part of the high profiles. -/
structure High where
  chromaFormatIdc : Nat
  separateColourPlane : Bool
  bitDepthLumaMinus8 : Nat
  bitDepthChromaMinus8 : Nat
  transformBypass : Bool

/-- No scaling matrix. -/
def highBits (h : High) : List Bool :=
  ueBits h.chromaFormatIdc ++ ((if h.chromaFormatIdc = 3 then flagBits h.separateColourPlane else []) ++ (ueBits h.bitDepthLumaMinus8 ++
    (ueBits h.bitDepthChromaMinus8 ++ (flagBits h.transformBypass ++ flagBits false))))

/-- 8.2.1: the three types of picture order counts. -/
inductive Poc
  | lsb (log2Minus4 : Nat)
  | cycle (alwaysZero : Bool) (nonRef topToBottom : Int) (offsets : List Int)
  | frameNum

def pocBits : Poc → List Bool
  | .lsb n => ueBits 0 ++ ueBits n
  | .cycle z a b l => ueBits 1 ++ (flagBits z ++ (seBits a ++ (seBits b ++ (ueBits l.length ++ l.flatMap seBits))))
  | .frameNum => ueBits 2

/-- The cropping rectangle: left, right, top, bottom. -/
structure Crop where
  left : Nat
  right : Nat
  top : Nat
  bottom : Nat

def cropBits (c : Crop) : List Bool := ueBits c.left ++ (ueBits c.right ++ (ueBits c.top ++ ueBits c.bottom))

/-- 7.3.2.1.1. -/
structure Sps where
  profileIdc : Nat
  constraintSet0 : Bool
  constraintSet1 : Bool
  constraintSet2 : Bool
  constraintSet3 : Bool
  /-- constraint_set4_flag, constraint_set5_flag and two zero bits -/
  constraintRest : Nat
  levelIdc : Nat
  id : Nat
  high : High
  log2MaxFrameNumMinus4 : Nat
  poc : Poc
  maxNumRefFrames : Nat
  gapsAllowed : Bool
  picWidthInMbsMinus1 : Nat
  picHeightInMapUnitsMinus1 : Nat
  frameMbsOnly : Bool
  mbAdaptiveFrameField : Bool
  direct8x8Inference : Bool
  crop : Option Crop
  vui : Option Vui

/-- The profiles whose parameter sets have the chroma format and bit depths. -/
def highProfiles : List Nat := [100, 110, 122, 244, 44, 83, 86, 118, 128, 138, 139, 134, 135]

def spsData (s : Sps) : List Bool :=
  bits 8 s.profileIdc ++ (flagBits s.constraintSet0 ++ (flagBits s.constraintSet1 ++ (flagBits s.constraintSet2 ++ (flagBits s.constraintSet3 ++
    (bits 4 s.constraintRest ++ (bits 8 s.levelIdc ++ (ueBits s.id ++ ((if s.profileIdc ∈ highProfiles then highBits s.high else []) ++
      (ueBits s.log2MaxFrameNumMinus4 ++ (pocBits s.poc ++ (ueBits s.maxNumRefFrames ++ (flagBits s.gapsAllowed ++
        (ueBits s.picWidthInMbsMinus1 ++ (ueBits s.picHeightInMapUnitsMinus1 ++ (flagBits s.frameMbsOnly ++
          ((if s.frameMbsOnly then [] else flagBits s.mbAdaptiveFrameField) ++ (flagBits s.direct8x8Inference ++ (optBits cropBits s.crop ++
            optBits vuiBits s.vui))))))))))))))))))

/-- 7.3.2.11: the stop bit and zeros up to the end of the byte. -/
def trailingBits (n : Nat) : List Bool := true :: List.replicate (7 - n % 8) false

/-- The bits of a sequence parameter set. -/
def spsBits (s : Sps) : List Bool := spsData s ++ trailingBits (spsData s).length

/-- The bytes of a bit string. -/
abbrev Bytes (l : List (BitVec 8)) (b : List Bool) : Prop := l.flatMap (fun x => bits 8 x.toNat) = b

/-- The NAL unit of a sequence parameter set: a header with `nal_ref_idc` and type 7, and the escaped payload. -/
def IsSpsNal (nal : List (BitVec 8)) (s : Sps) : Prop :=
  ∃ ref payload, 0 < ref ∧ ref < 4 ∧ Bytes payload (spsBits s) ∧ nal = BitVec.ofNat 8 (ref * 32 + 7) :: escape payload

/-- The luma samples of a frame, without cropping. -/
def frameWidth (s : Sps) : Nat := 16 * (s.picWidthInMbsMinus1 + 1)
def frameHeight (s : Sps) : Nat := (if s.frameMbsOnly then 1 else 2) * (16 * (s.picHeightInMapUnitsMinus1 + 1))

/-- The chroma format: not transmitted in the lower profiles, where it is 4:2:0. -/
def chromaFormat (s : Sps) : Nat := if s.profileIdc ∈ highProfiles then s.high.chromaFormatIdc else 1

/-- 7.4.2.1.1: the units of the cropping rectangle. -/
def cropUnitX (s : Sps) : Nat := if chromaFormat s = 1 ∨ chromaFormat s = 2 then 2 else 1
def cropUnitY (s : Sps) : Nat := (if chromaFormat s = 1 then 2 else 1) * (if s.frameMbsOnly then 1 else 2)

/-- The size of the pictures that are shown. -/
def displayWidth (s : Sps) : Nat := frameWidth s - (match s.crop with | none => 0 | some c => cropUnitX s * (c.left + c.right))
def displayHeight (s : Sps) : Nat := frameHeight s - (match s.crop with | none => 0 | some c => cropUnitY s * (c.top + c.bottom))

/-! ISO/IEC 14496-15, 5.2.4.1: the AVC decoder configuration record. -/

def be16 (n : Nat) : List (BitVec 8) := [BitVec.ofNat 8 (n / 256), BitVec.ofNat 8 n]

/-- A parameter set with its length. -/
def setBytes (s : List (BitVec 8)) : List (BitVec 8) := be16 s.length ++ s

structure Record where
  profile : Nat
  compatibility : Nat
  level : Nat
  /-- The bytes of the length before each NAL unit of a sample. -/
  lengthSize : Nat
  sps : List (List (BitVec 8))
  pps : List (List (BitVec 8))
  /-- What follows for the high profiles: chroma format and bit depths, and sequence parameter set extensions. -/
  extension : List (BitVec 8)

def Record.ok (r : Record) : Prop :=
  r.profile < 256 ∧ r.compatibility < 256 ∧ r.level < 256 ∧ 1 ≤ r.lengthSize ∧ r.lengthSize ≤ 4 ∧ r.sps.length < 32 ∧ r.pps.length < 256 ∧
    (∀ x ∈ r.sps, x.length < 65536) ∧ ∀ x ∈ r.pps, x.length < 65536

/-- The bytes of a record. -/
def Record.bytes (r : Record) : List (BitVec 8) :=
  [1, BitVec.ofNat 8 r.profile, BitVec.ofNat 8 r.compatibility, BitVec.ofNat 8 r.level, BitVec.ofNat 8 (252 + (r.lengthSize - 1)),
    BitVec.ofNat 8 (224 + r.sps.length)] ++ r.sps.flatMap setBytes ++ [BitVec.ofNat 8 r.pps.length] ++ r.pps.flatMap setBytes ++ r.extension

/-- The byte of constraint flags in a sequence parameter set, which is the profile compatibility. -/
def constraintByte (s : Sps) : Nat :=
  128 * s.constraintSet0.toNat + 64 * s.constraintSet1.toNat + 32 * s.constraintSet2.toNat + 16 * s.constraintSet3.toNat + s.constraintRest

/-- The extension: for the profiles 100, 110, 122 and 144 the chroma format, the bit depths, and no sequence parameter set extensions. -/
def extensionFor (s : Sps) : List (BitVec 8) :=
  if s.profileIdc ∈ [100, 110, 122, 144] then
    [BitVec.ofNat 8 (252 + s.high.chromaFormatIdc), BitVec.ofNat 8 (248 + s.high.bitDepthLumaMinus8), BitVec.ofNat 8 (248 + s.high.bitDepthChromaMinus8), 0]
  else []

/-- The record for one sequence parameter set and one picture parameter set, with lengths of 4 bytes. -/
def recordFor (s : Sps) (sps pps : List (BitVec 8)) : Record :=
  ⟨s.profileIdc, constraintByte s, s.levelIdc, 4, [sps], [pps], extensionFor s⟩

end Verif.H264.Spec

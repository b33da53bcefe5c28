import Verif.BitStream.Model

/-
Model of the H.264 side of the code: NAL unit decoding (src/mg/media/h264nal.h), the Exp-Golomb and sequence parameter set parser
(src/mg/media/mp4/h264.fl), and the AVC decoder configuration record made from a sequence and a picture parameter set
(src/mg/media/mp4/mp4.fl, src/mg/media/mp4write.h). The bit reader is the one of `Verif.BitStream`.
-/
namespace Verif.H264
open Verif.BitStream (Byte Word Mem RErr RState rInit getbits nextbits skipbits)

/-! ### NAL units -/

/-- src/mg/media/h264nal.h 75-95: the loop of `decode_nal` on the bytes after the header. The reader is at a byte boundary all the time, so
`nextbits(8)` and `nextbits(24)` are the next one and the next three bytes. -/
def decodeLoop : List Byte → List Byte
  | [] => []
  | [x] => if x = 3 then [] else [x]
  | [x, y] => x :: decodeLoop [y]
  | x :: y :: z :: rest => if x = 0 ∧ y = 0 ∧ z = 3 then 0 :: 0 :: decodeLoop rest else x :: decodeLoop (y :: z :: rest)

/-- What `decode_nal` gives: `nal_ref_idc`, `nal_unit_type`, and the bytes (with the header). -/
structure Nal where
  refIdc : Nat
  unitType : Nat
  rbsp : List Byte

/-- src/mg/media/h264nal.h 56-96: `decode_nal`; there is no header byte in an empty unit, the reader throws. -/
def decodeNal : List Byte → Option Nal
  | [] => none
  | h :: rest => some { refIdc := h.toNat / 32, unitType := h.toNat % 32, rbsp := h :: decodeLoop rest }

/-- src/mg/media/h264nal.h 75-95 when the output is the same memory as the input (105-123): `idx` counts the bytes read after the header, `w` is
`NumBytesInRBSP`; the reader reads the memory as it is at that time. -/
def inPlaceLoop (n : Nat) : Nat → Nat → Nat → Mem → Mem × Nat
  | 0, _, w, m => (m, w)
  | fuel + 1, idx, w, m =>
    if idx < n then
      if idx + 1 = n ∧ m (idx + 1) = 3 then (m, w)
      else if idx + 2 < n ∧ m (idx + 1) = 0 ∧ m (idx + 2) = 0 ∧ m (idx + 3) = 3 then
        inPlaceLoop n fuel (idx + 3) (w + 2) (fun i => if i = w ∨ i = w + 1 then 0 else m i)
      else inPlaceLoop n fuel (idx + 1) (w + 1) (fun i => if i = w then m (idx + 1) else m i)
    else (m, w)

/-- src/mg/media/h264nal.h 105-123: `decode_nal_in_place` on a unit of `size` bytes at the start of the memory; the memory and `NumBytesInRBSP`. -/
def decodeInPlace (size : Nat) (m : Mem) : Mem × Nat := inPlaceLoop (size - 1) size 0 1 m

/-! ### Exp-Golomb codes -/

/-- A reader: the `get` functions. -/
abbrev Parser := StateT RState (Except RErr)

/-- `getbits` with a fixed number of bits. -/
def u (n : Nat) : Parser Nat := fun s =>
  match getbits s n with
  | .error e => .error e
  | .ok (x, s) => .ok (x.toNat, s)

/-- A flag. -/
def flag : Parser Bool := do return (← u 1) ≠ 0

/-- src/mg/media/mp4/h264.fl 17-19: the loop counting leading zero bits. It ends at the latest when the reader throws at the end of the data. -/
def zerosLoop : Nat → Nat → Parser Nat
  | 0, _ => fun _ => .error .ub
  | fuel + 1, n => do
    if (← u 1) = 0 then zerosLoop fuel (n + 1) else return n

/-- src/mg/media/mp4/h264.fl 13-30: `exp_ue_golomb`. The conversion of 2^31 and more to `int` is undefined. -/
def ue : Parser Nat := do
  let s ← get
  let zeros ← zerosLoop (8 * s.len + 1) 0
  if zeros = 0 then return 0
  let trailer ← u zeros
  if 31 ≤ zeros then throw .ub
  return 2 ^ zeros - 1 + trailer

/-- The `float` nearest to a natural number (24 bits, ties to even), which is a natural number again. -/
def toFloat (k : Nat) : Nat :=
  if k < 2 ^ 24 then k
  else
    let s := Nat.log2 k - 23
    let q := k / 2 ^ s
    let r := k % 2 ^ s
    (if 2 * r > 2 ^ s ∨ (2 * r = 2 ^ s ∧ q % 2 = 1) then q + 1 else q) * 2 ^ s

/-- src/mg/media/mp4/h264.fl 32-41: `exp_se_golomb`; `q` is -1 to the power `k + 1`, which is 1 for an even exponent, and half of a float is a float. The conversion of 2^31 to `int` is
undefined. -/
def se : Parser Int := do
  let k := toFloat (← ue)
  if 2 ^ 31 - 1 ≤ k then throw .ub
  return (if (k + 1) % 2 = 0 then 1 else -1) * (((k + 1) / 2 : Nat) : Int)

/-! ### Sequence parameter sets -/

/-- src/mg/media/mp4/h264.fl 45-71: the members of `hrd_parameters`; one triple for each `SchedSelIdx`. -/
structure Hrd where
  bitRateScale : Nat
  cpbSizeScale : Nat
  cpb : List (Nat × Nat × Bool)
  initialCpbRemovalDelayLengthMinus1 : Nat
  cpbRemovalDelayLengthMinus1 : Nat
  dpbOutputDelayLengthMinus1 : Nat
  timeOffsetLength : Nat

/-- `n` things one after the other. -/
def many {α : Type} (p : Parser α) : Nat → Parser (List α)
  | 0 => return []
  | n + 1 => do
    let x ← p
    let xs ← many p n
    return x :: xs

/-- Something present only if a flag is set. -/
def opt {α : Type} (c : Bool) (p : Parser α) : Parser (Option α) := if c then do return some (← p) else return none

/-- src/mg/media/mp4/h264.fl 57-63: the body of the loop. -/
def cpbEntry : Parser (Nat × Nat × Bool) := do
  let a ← ue
  let b ← ue
  let c ← flag
  return (a, b, c)

/-- src/mg/media/mp4/h264.fl 45-71: `hrd_parameters`. The arrays have 64 places; more is an overrun. -/
def hrd : Parser Hrd := do
  let n ← ue
  if 64 ≤ n then throw .ub
  let bitRateScale ← u 4
  let cpbSizeScale ← u 4
  let cpb ← many cpbEntry (n + 1)
  let a ← u 5
  let b ← u 5
  let c ← u 5
  let d ← u 5
  return ⟨bitRateScale, cpbSizeScale, cpb, a, b, c, d⟩

/-- src/mg/media/mp4/h264.fl 84-91: the aspect ratio. -/
def aspect : Parser (Nat × Option (Nat × Nat)) := do
  let idc ← u 8
  let sar ← opt (idc = 255) do
    let w ← u 16
    let h ← u 16
    return (w, h)
  return (idc, sar)

/-- src/mg/media/mp4/h264.fl 97-107: the video signal type. -/
def videoSignal : Parser (Nat × Bool × Option (Nat × Nat × Nat)) := do
  let format ← u 3
  let range ← flag
  let c ← flag
  let colour ← opt c do
    let a ← u 8
    let b ← u 8
    let c ← u 8
    return (a, b, c)
  return (format, range, colour)

/-- A pair of unsigned codes. -/
def uePair : Parser (Nat × Nat) := do
  let a ← ue
  let b ← ue
  return (a, b)

/-- src/mg/media/mp4/h264.fl 114-123: the timing information. -/
def timing : Parser (Nat × Nat × Bool) := do
  let a ← u 32
  let b ← u 32
  let c ← flag
  return (a, b, c)

/-- src/mg/media/mp4/h264.fl 137-151: the bitstream restriction. -/
def restriction : Parser (Bool × List Nat) := do
  let a ← flag
  let l ← many ue 6
  return (a, l)

/-- src/mg/media/mp4/h264.fl 73-166: the members of `vui_parameters`. -/
structure Vui where
  aspect : Option (Nat × Option (Nat × Nat))
  overscan : Option Bool
  signal : Option (Nat × Bool × Option (Nat × Nat × Nat))
  chromaLoc : Option (Nat × Nat)
  timing : Option (Nat × Nat × Bool)
  nalHrd : Option Hrd
  vclHrd : Option Hrd
  lowDelay : Option Bool
  picStruct : Bool
  restriction : Option (Bool × List Nat)

/-- A flag, and what follows if it is set. -/
def optional {α : Type} (p : Parser α) : Parser (Option α) := do
  let c ← flag
  opt c p

/-- src/mg/media/mp4/h264.fl 73-166: `vui_parameters`. -/
def vui : Parser Vui := do
  let a ← optional aspect
  let o ← optional flag
  let v ← optional videoSignal
  let c ← optional uePair
  let t ← optional timing
  let n ← optional hrd
  let l ← optional hrd
  let d ← opt (n.isSome || l.isSome) flag
  let p ← flag
  let r ← optional restriction
  return ⟨a, o, v, c, t, n, l, d, p, r⟩

/-- An `int` stored in an `unsigned int`. -/
def toUnsigned (v : Int) : Nat := (v % 2 ^ 32).toNat

/-- src/mg/media/mp4/h264.fl 184-212: what only the high profiles have. -/
structure High where
  chromaFormatIdc : Nat
  residualColour : Option Bool
  bitDepthLuma : Nat
  bitDepthChroma : Nat
  transformBypass : Bool
  scalingMatrix : Bool

/-- src/mg/media/mp4/h264.fl 198-212. A scaling matrix is not decoded (the flag is expected to be 0, which is not checked). -/
def high : Parser High := do
  let c ← ue
  let r ← opt (c = 3) flag
  let l ← ue
  let d ← ue
  let t ← flag
  let m ← flag
  return ⟨c, r, l, d, t, m⟩

/-- src/mg/media/mp4/h264.fl 215-240: the picture order count, `pic_order_cnt_type` and what follows for types 0 and 1. -/
structure Poc where
  type : Nat
  lsb : Option Nat
  alwaysZero : Option Bool
  nonRef : Nat
  topToBottom : Nat
  cycle : List Nat

/-- src/mg/media/mp4/h264.fl 219-240: type 1; the signed numbers are kept in unsigned members. (The offsets of the cycle go through one member,
here they are a list.) -/
def poc1 : Parser Poc := do
  let z ← flag
  let a ← se
  let b ← se
  let n ← ue
  let l ← many se n
  return ⟨1, none, some z, toUnsigned a, toUnsigned b, l.map toUnsigned⟩

/-- src/mg/media/mp4/h264.fl 215-240. -/
def poc : Parser Poc := do
  let t ← ue
  if t = 0 then do
    let l ← ue
    return ⟨t, some l, none, 0, 0, []⟩
  else if t = 1 then poc1
  else return ⟨t, none, none, 0, 0, []⟩

/-- src/mg/media/mp4/h264.fl 249-255: the cropping. -/
def crop : Parser (Nat × Nat × Nat × Nat) := do
  let a ← ue
  let b ← ue
  let c ← ue
  let d ← ue
  return (a, b, c, d)

/-- src/mg/media/mp4/h264.fl 170-284: the members of `H264Sequence`. -/
structure Sequence where
  profileIdc : Nat
  constraintSet0 : Bool
  constraintSet1 : Bool
  constraintSet2 : Bool
  constraintSet3 : Bool
  reservedZeroBits : Nat
  levelIdc : Nat
  id : Nat
  high : Option High
  log2MaxFrameNumMinus4 : Nat
  poc : Poc
  numRefFrames : Nat
  gaps : Bool
  picWidthInMbsMinus1 : Nat
  picHeightInMapUnitsMinus1 : Nat
  frameMbsOnly : Bool
  mbAdaptive : Option Bool
  direct8x8 : Bool
  crop : Option (Nat × Nat × Nat × Nat)
  vui : Option Vui

/-- src/mg/media/mp4/h264.fl 270-273: the stop bit and the bits up to the next byte (`numbits` is the number of bits read). -/
def trailing : Parser Unit := fun s =>
  match flag s with
  | .error e => .error e
  | .ok (_, s) => .ok ((), if s.tot % 8 ≠ 0 then skipbits s (8 - s.tot % 8) else s)

/-- src/mg/media/mp4/h264.fl 170-267: `H264Sequence::get` up to the trailing bits. Members with an expected value (`reserved_zero_bits`, `decode_scaling_matrix`,
`rbsp_stop_one_bit`) are read, another value is not an error. -/
def sequenceData : Parser Sequence := do
  let profile ← u 8
  let c0 ← flag
  let c1 ← flag
  let c2 ← flag
  let c3 ← flag
  let res ← u 4
  let level ← u 8
  let id ← ue
  let hi ← opt (100 ≤ profile) high
  let log2 ← ue
  let poc ← poc
  let refs ← ue
  let gaps ← flag
  let w ← ue
  let h ← ue
  let only ← flag
  let mb ← opt (!only) flag
  let direct ← flag
  let crop ← optional crop
  let vui ← optional vui
  return ⟨profile, c0, c1, c2, c3, res, level, id, hi, log2, poc, refs, gaps, w, h, only, mb, direct, crop, vui⟩

/-- src/mg/media/mp4/h264.fl 170-273: `H264Sequence::get`. -/
def sequence : Parser Sequence := do
  let x ← sequenceData
  trailing
  return x

/-- src/mg/media/mp4write.h 1825-1836: a sequence parameter set NAL unit is decoded and parsed. `beyond` is the memory after the buffer. -/
def parseSps (beyond : Mem) (sps : List Byte) : Except RErr Sequence :=
  match decodeNal sps with
  | none => .error .endOfData
  | some nal =>
    match sequence (rInit (nal.rbsp.drop 1) beyond) with
    | .error e => .error e
    | .ok (x, _) => .ok x

/-- src/mg/media/mp4write.h 1857-1858: the width (32 bit). -/
def width (x : Sequence) : Nat := 16 * (x.picWidthInMbsMinus1 + 1) % 2 ^ 32

/-- src/mg/media/mp4write.h 1857-1858: the height. -/
def height (x : Sequence) : Nat := 16 * (x.picHeightInMapUnitsMinus1 + 1) % 2 ^ 32

/-! ### Decoder configuration -/

/-- src/mg/media/mp4/mp4.fl 562-609: the members of `AVCDecoderConfigurationRecord`. There is one array of 256 bytes for the sequence parameter
sets and one for the picture parameter sets (`%pragma array=256`); `overrun` is set when more is written to them. -/
structure Avcc where
  profile : Nat
  compatibility : Nat
  level : Nat
  lengthSizeMinusOne : Nat
  sps : List Byte
  pps : List Byte
  overrun : Bool

/-- src/mg/media/mp4write.h 1838-1853 with `set_sps` and `set_pps` (src/mg/media/mp4/mp4.fl 624-644). The flags of the profile compatibility are
combined with `||`. -/
def makeAvcc (x : Sequence) (sps pps : List Byte) : Avcc :=
  { profile := x.profileIdc
    compatibility := if x.constraintSet0 || x.constraintSet1 || x.constraintSet2 || x.constraintSet3 || x.reservedZeroBits != 0 then 1 else 0
    level := x.levelIdc
    lengthSizeMinusOne := 3
    sps := sps
    pps := pps
    overrun := decide (256 < sps.length) || decide (256 < pps.length) }

/-- A field of 16 bits. -/
def put16 (n : Nat) : List Byte := [BitVec.ofNat 8 (n / 256), BitVec.ofNat 8 n]

/-- src/mg/media/mp4/mp4.fl 571-609: `put`. -/
def putAvcc (a : Avcc) : List Byte :=
  [1, BitVec.ofNat 8 a.profile, BitVec.ofNat 8 a.compatibility, BitVec.ofNat 8 a.level, BitVec.ofNat 8 (0xFC + a.lengthSizeMinusOne % 4), 0xE1] ++
    put16 a.sps.length ++ a.sps ++ [1] ++ put16 a.pps.length ++ a.pps

/-- src/mg/media/mp4write.h 1815-1864: `AVCDecoderConfigurationRecordFromSPSandPPS`: the record, the width and the height, and whether memory was
overrun. -/
def avccFromSpsAndPps (beyond : Mem) (sps pps : List Byte) : Except RErr (List Byte × Nat × Nat × Bool) :=
  match parseSps beyond sps with
  | .error e => .error e
  | .ok x => .ok (putAvcc (makeAvcc x sps pps), width x, height x, (makeAvcc x sps pps).overrun)

/-- src/mg/media/mp4/mp4.fl 591-598 and 601-607: `n` parameter sets. Every one is put in the same array, from its start; the lengths are kept
apart. Gives the lengths, the array (`old` is what was in it) and whether more than 256 bytes were put in it, and the rest of the data; `none` when the data ends (the
reader throws). -/
def getSets : Nat → List Byte → List Byte → Option (List Nat × List Byte × Bool × List Byte)
  | 0, old, l => some ([], old, false, l)
  | n + 1, old, hi :: lo :: l =>
    let len := hi.toNat * 256 + lo.toNat
    if l.length < len then none
    else
      match getSets n (l.take len ++ old.drop len) (l.drop len) with
      | none => none
      | some (lens, array, past, rest) => some (len :: lens, array, decide (256 < len) || past, rest)
  | _ + 1, _, _ => none

/-- What `get` leaves in the members. -/
structure AvccMembers where
  profile : Nat
  compatibility : Nat
  level : Nat
  lengthSizeMinusOne : Nat
  spsLengths : List Nat
  spsArray : List Byte
  ppsLengths : List Nat
  ppsArray : List Byte
  overrun : Bool
  deriving DecidableEq

/-- src/mg/media/mp4/mp4.fl 571-609: `get`. The version and the reserved bits are not checked (only a warning). -/
def getAvcc : List Byte → Option AvccMembers
  | _ :: profile :: compatibility :: level :: size :: count :: l =>
    match getSets (count.toNat % 32) [] l with
    | some (spsLengths, spsArray, over1, n :: l) =>
      match getSets n.toNat [] l with
      | none => none
      | some (ppsLengths, ppsArray, over2, _) =>
        some ⟨profile.toNat, compatibility.toNat, level.toNat, size.toNat % 4, spsLengths, spsArray, ppsLengths, ppsArray, over1 || over2⟩
    | _ => none
  | _ => none

/-- src/mg/media/mp4/mp4.fl 612-613: `get_sequence(idx)` with `get_sequence_size(idx)`. -/
def AvccMembers.sequence (m : AvccMembers) (i : Nat) : List Byte := m.spsArray.take (m.spsLengths.getD i 0)

/-- src/mg/media/mp4/mp4.fl 618-619: `get_picture(idx)` with `get_picture_size(idx)`. -/
def AvccMembers.picture (m : AvccMembers) (i : Nat) : List Byte := m.ppsArray.take (m.ppsLengths.getD i 0)

end Verif.H264

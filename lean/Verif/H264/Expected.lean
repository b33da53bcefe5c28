import Verif.H264.Model
import Verif.H264.Spec

/-
What the parser's members must be for a sequence parameter set, and which sequence parameter sets are considered.
-/
namespace Verif.H264.Spec

/-- The members of a parsed structure for the values in the standard's syntax. -/
def hrdMembers (h : Hrd) : H264.Hrd :=
  ⟨h.bitRateScale, h.cpbSizeScale, h.cpb.1 :: h.cpb.2, h.initialCpbRemovalDelayLengthMinus1, h.cpbRemovalDelayLengthMinus1,
    h.dpbOutputDelayLengthMinus1, h.timeOffsetLength⟩

def aspectMembers : Aspect → Nat × Option (Nat × Nat)
  | .idc n => (n, none)
  | .sar w h => (255, some (w, h))

def vuiMembers (v : Vui) : H264.Vui :=
  { aspect := v.aspect.map aspectMembers
    overscan := v.overscan
    signal := v.signal.map fun x => (x.format, x.fullRange, x.colour)
    chromaLoc := v.chromaLoc
    timing := v.timing
    nalHrd := v.nalHrd.map hrdMembers
    vclHrd := v.vclHrd.map hrdMembers
    lowDelay := if v.nalHrd.isSome || v.vclHrd.isSome then some v.lowDelay else none
    picStruct := v.picStruct
    restriction := v.restriction.map fun r => (r.overBoundaries, [r.maxBytes, r.maxBits, r.mvHorizontal, r.mvVertical, r.reorder, r.buffering]) }

def highMembers (h : High) : H264.High :=
  ⟨h.chromaFormatIdc, if h.chromaFormatIdc = 3 then some h.separateColourPlane else none, h.bitDepthLumaMinus8, h.bitDepthChromaMinus8,
    h.transformBypass, false⟩

/-- Signed values are kept as 32 bit two's complement. -/
def pocMembers : Poc → H264.Poc
  | .lsb n => ⟨0, some n, none, 0, 0, []⟩
  | .cycle z a b l => ⟨1, none, some z, (a % 2 ^ 32).toNat, (b % 2 ^ 32).toNat, l.map fun x => (x % 2 ^ 32).toNat⟩
  | .frameNum => ⟨2, none, none, 0, 0, []⟩

def members (s : Sps) : H264.Sequence :=
  { profileIdc := s.profileIdc
    constraintSet0 := s.constraintSet0
    constraintSet1 := s.constraintSet1
    constraintSet2 := s.constraintSet2
    constraintSet3 := s.constraintSet3
    reservedZeroBits := s.constraintRest
    levelIdc := s.levelIdc
    id := s.id
    high := if s.profileIdc ∈ highProfiles then some (highMembers s.high) else none
    log2MaxFrameNumMinus4 := s.log2MaxFrameNumMinus4
    poc := pocMembers s.poc
    numRefFrames := s.maxNumRefFrames
    gaps := s.gapsAllowed
    picWidthInMbsMinus1 := s.picWidthInMbsMinus1
    picHeightInMapUnitsMinus1 := s.picHeightInMapUnitsMinus1
    frameMbsOnly := s.frameMbsOnly
    mbAdaptive := if s.frameMbsOnly then none else some s.mbAdaptiveFrameField
    direct8x8 := s.direct8x8Inference
    crop := s.crop.map fun c => (c.left, c.right, c.top, c.bottom)
    vui := s.vui.map vuiMembers }

/-- The unsigned codes that the parser can read: less than 2^31 - 1 (the standard allows up to 2^32 - 2). -/
def UOk (v : Nat) : Prop := v + 1 < 2 ^ 31

/-- The signed codes that the parser can read: up to 2^23 (the standard allows up to 2^31 - 1). -/
def SOk (v : Int) : Prop := v.natAbs ≤ 2 ^ 23

/-- At most 64 bit rates (the standard has at most 32). -/
def HrdOk (h : Hrd) : Prop :=
  h.cpb.2.length < 64 ∧ h.bitRateScale < 16 ∧ h.cpbSizeScale < 16 ∧ (∀ x ∈ h.cpb.1 :: h.cpb.2, UOk x.1 ∧ UOk x.2.1) ∧
    h.initialCpbRemovalDelayLengthMinus1 < 32 ∧ h.cpbRemovalDelayLengthMinus1 < 32 ∧ h.dpbOutputDelayLengthMinus1 < 32 ∧ h.timeOffsetLength < 32

def AspectOk : Aspect → Prop
  | .idc n => n < 255
  | .sar w h => w < 65536 ∧ h < 65536

def SignalOk (x : Signal) : Prop := x.format < 8 ∧ ∀ c, x.colour = some c → c.1 < 256 ∧ c.2.1 < 256 ∧ c.2.2 < 256

def RestrictionOk (r : Restriction) : Prop :=
  UOk r.maxBytes ∧ UOk r.maxBits ∧ UOk r.mvHorizontal ∧ UOk r.mvVertical ∧ UOk r.reorder ∧ UOk r.buffering

def VuiOk (v : Vui) : Prop :=
  (∀ x, v.aspect = some x → AspectOk x) ∧ (∀ x, v.signal = some x → SignalOk x) ∧ (∀ x, v.chromaLoc = some x → UOk x.1 ∧ UOk x.2) ∧
    (∀ x, v.timing = some x → x.1 < 2 ^ 32 ∧ x.2.1 < 2 ^ 32) ∧ (∀ x, v.nalHrd = some x → HrdOk x) ∧ (∀ x, v.vclHrd = some x → HrdOk x) ∧
    ∀ x, v.restriction = some x → RestrictionOk x

def PocOk : Poc → Prop
  | .lsb n => UOk n
  | .cycle _ a b l => SOk a ∧ SOk b ∧ UOk l.length ∧ ∀ x ∈ l, SOk x
  | .frameNum => True

def CropOk (c : Crop) : Prop := UOk c.left ∧ UOk c.right ∧ UOk c.top ∧ UOk c.bottom

def HighOk (h : High) : Prop := UOk h.chromaFormatIdc ∧ UOk h.bitDepthLumaMinus8 ∧ UOk h.bitDepthChromaMinus8

/-- The profiles: those of the high family with numbers from 100 on, and the others below 100. (Left out: 44, 83 and 86.) -/
def ProfileOk (n : Nat) : Prop := n < 256 ∧ (n ∈ highProfiles ↔ 100 ≤ n)

def SpsOk (s : Sps) : Prop :=
  ProfileOk s.profileIdc ∧ s.constraintRest < 16 ∧ s.levelIdc < 256 ∧ UOk s.id ∧ HighOk s.high ∧ UOk s.log2MaxFrameNumMinus4 ∧ PocOk s.poc ∧
    UOk s.maxNumRefFrames ∧ UOk s.picWidthInMbsMinus1 ∧ UOk s.picHeightInMapUnitsMinus1 ∧ (∀ c, s.crop = some c → CropOk c) ∧
    ∀ v, s.vui = some v → VuiOk v

end Verif.H264.Spec

import Verif.H264.Spec
/-
ITU-T H.264: the syntax of picture parameter sets (7.3.2.2), of the beginning of slice headers (7.3.3) and of SEI messages (7.3.2.3.1), as the bits an encoder writes; samples with length prefixed NAL units (ISO/IEC 14496-15).
-/
namespace Verif.Slice.Spec
open Verif.H264.Spec

/-- Slice groups: `slice_group_map_type` 0, 1, 2, 3 to 5, 6. -/
inductive Groups
  | interleaved (first second : Nat) (rest : List Nat)
  | dispersed (minus1 : Nat)
  | foreground (first : Nat × Nat) (rest : List (Nat × Nat))
  | changing (minus1 kind : Nat) (direction : Bool) (rateMinus1 : Nat)
  | explicit (minus1 : Nat) (first : Nat) (rest : List Nat)

/-- `num_slice_groups_minus1`, 0 without slice groups. -/
def minus1 : Option Groups → Nat
  | none => 0
  | some (.interleaved _ _ l) => l.length + 1
  | some (.dispersed n) => n
  | some (.foreground _ l) => l.length + 1
  | some (.changing n _ _ _) => n
  | some (.explicit n _ _) => n

/-- Ceil(Log2(n)). -/
def ceilLog2 (n : Nat) : Nat := Nat.log2 (2 * n - 1)

def groupBits : Groups → List Bool
  | .interleaved a b l => ueBits 0 ++ (a :: b :: l).flatMap ueBits
  | .dispersed _ => ueBits 1
  | .foreground a l => ueBits 2 ++ (a :: l).flatMap fun x => ueBits x.1 ++ ueBits x.2
  | .changing _ k d r => ueBits k ++ (flagBits d ++ ueBits r)
  | .explicit n a l => ueBits 6 ++ (ueBits l.length ++ (a :: l).flatMap (bits (ceilLog2 (n + 1))))

/-- A picture parameter set up to the extension. -/
structure Pps where
  id : Nat
  spsId : Nat
  entropy : Bool
  picOrder : Bool
  groups : Option Groups
  l0Minus1 : Nat
  l1Minus1 : Nat
  weighted : Bool
  bipred : Nat
  qp : Int
  qs : Int
  chroma : Int
  deblocking : Bool
  constrained : Bool
  redundant : Bool

def ppsBits (p : Pps) : List Bool :=
  ueBits p.id ++ (ueBits p.spsId ++ (flagBits p.entropy ++ (flagBits p.picOrder ++ (ueBits (minus1 p.groups) ++ ((match p.groups with | none => [] | some g => groupBits g) ++
    (ueBits p.l0Minus1 ++ (ueBits p.l1Minus1 ++ (flagBits p.weighted ++ (bits 2 p.bipred ++ (seBits p.qp ++ (seBits p.qs ++ (seBits p.chroma ++ (flagBits p.deblocking ++
      (flagBits p.constrained ++ flagBits p.redundant))))))))))))))

/-- The extension without scaling matrix: `transform_8x8_mode_flag` and `second_chroma_qp_index_offset`. -/
def extBits (transform : Bool) (second : Int) : List Bool := flagBits transform ++ (flagBits false ++ seBits second)

/-- The bits of the parameter set: `ext` stands for the bits of any extension, with or without scaling lists; none for no extension. -/
def ppsAll (p : Pps) (ext : List Bool) : List Bool := ppsBits p ++ (ext ++ trailingBits (ppsBits p ++ ext).length)

/-- The NAL unit of a picture parameter set: type 8. -/
def IsPpsNal (nal : List (BitVec 8)) (p : Pps) (ext : List Bool) (payload : List (BitVec 8)) : Prop :=
  ∃ ref, 0 < ref ∧ ref < 4 ∧ Bytes payload (ppsAll p ext) ∧ nal = BitVec.ofNat 8 (ref * 32 + 8) :: escape payload

/-- The beginning of a slice header. `picture` is `none` for a frame, otherwise `bottom_field_flag`. -/
structure Slice where
  firstMb : Nat
  type : Nat
  ppsId : Nat
  colourPlane : Nat
  frameNum : Nat
  picture : Option Bool
  idrPicId : Nat
  pocLsb : Nat
  deltaBottom : Int
  delta0 : Int
  delta1 : Int
  redundant : Nat
  direct : Bool
  override : Option (Nat × Nat)

/-- Whether the sequence has `separate_colour_plane_flag`. -/
def separate (s : Sps) : Bool := s.profileIdc ∈ highProfiles && (s.high.chromaFormatIdc = 3 && s.high.separateColourPlane)

/-- The order count of the picture. The number for the bottom field is there for frames only. -/
def orderBits (s : Sps) (p : Pps) (x : Slice) : List Bool :=
  match s.poc with
  | .lsb n => bits (n + 4) x.pocLsb ++ (if p.picOrder && x.picture.isNone then seBits x.deltaBottom else [])
  | .cycle zero _ _ _ => if zero then [] else seBits x.delta0 ++ (if p.picOrder && x.picture.isNone then seBits x.delta1 else [])
  | .frameNum => []

/-- 7.3.3 up to `num_ref_idx_active_override_flag` and the numbers behind it: types 0 and 5 are P, 1 and 6 B, 3 and 8 SP, the others have no list. -/
def sliceBits (s : Sps) (p : Pps) (nalType : Nat) (x : Slice) : List Bool :=
  ueBits x.firstMb ++ (ueBits x.type ++ (ueBits x.ppsId ++ ((if separate s then bits 2 x.colourPlane else []) ++ (bits (s.log2MaxFrameNumMinus4 + 4) x.frameNum ++
    ((if s.frameMbsOnly then [] else optBits flagBits x.picture) ++ ((if nalType = 5 then ueBits x.idrPicId else []) ++ (orderBits s p x ++
      ((if p.redundant then ueBits x.redundant else []) ++ ((if x.type % 5 = 1 then flagBits x.direct else []) ++
        (if x.type % 5 = 0 ∨ x.type % 5 = 1 ∨ x.type % 5 = 3 then
          optBits (fun n => ueBits n.1 ++ (if x.type % 5 = 1 then ueBits n.2 else [])) x.override else []))))))))))

/-- The bytes before the payload of an SEI message: type and size, 255 for each 255 and the rest. -/
def seiNumber (n : Nat) : List (BitVec 8) := List.replicate (n / 255) 255 ++ [BitVec.ofNat 8 (n % 255)]

/-- A sample of a track: each NAL unit with its length in `k` bytes. -/
def prefixed (k : Nat) (units : List (List (BitVec 8))) : List (BitVec 8) :=
  units.flatMap fun x => (List.range k).map (fun i => BitVec.ofNat 8 (x.length / 256 ^ (k - 1 - i))) ++ x

end Verif.Slice.Spec

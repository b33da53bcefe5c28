import Verif.Fields.Spec
/-
Elementary stream data as standards define it: H.264 byte stream format (ISO/IEC 14496-10 Annex B) and ADTS frames (ISO/IEC 14496-3).
-/
namespace Verif.Demux.Spec
open Fields

/-- Bytes that can be a NAL unit in a byte stream: not empty, not ending with a zero byte, no start code inside. -/
structure IsNal (n : List UInt8) : Prop where
  nonempty : n ≠ []
  last : n.getLast? ≠ some 0
  clean : ¬ [0, 0, 1] <:+: n

/-- nal_unit_type: after forbidden_zero_bit and nal_ref_idc, five bits (14496-10 7.3.1). -/
def unitType (n : List UInt8) : Nat := ((Fields.read [1, 2, 5] n).bind (·[2]?)).getD 0

/-- NAL units in byte stream format, `zeros` zero bytes before the 1 of each start code. -/
def annexB (units : List (Nat × List UInt8)) : List UInt8 := units.flatMap fun u => List.replicate u.1 0 ++ [1] ++ u.2

/-- An ADTS frame: `crc` present or not, the other header fields, the coded data. -/
structure Frame where
  version : Nat
  crc : Option Nat
  profile : Nat
  frequency : Nat
  channels : Nat
  fullness : Nat
  bits : Nat
  body : List UInt8
deriving DecidableEq, Repr

/-- Bytes before the body. -/
def Frame.headerSize (f : Frame) : Nat := if f.crc.isSome then 9 else 7

/-- The bytes of a frame (14496-3 1.A.2.2): 4 home/copyright bits and the private bit are in `bits`, one raw data block. -/
def Frame.bytes (f : Frame) : List UInt8 :=
  pack [(12, 0xFFF), (1, f.version), (2, 0), (1, if f.crc.isSome then 0 else 1), (2, f.profile), (4, f.frequency), (1, f.bits / 16),
    (3, f.channels), (1, f.bits / 8), (1, f.bits / 4), (1, f.bits / 2), (1, f.bits), (13, f.headerSize + f.body.length), (11, f.fullness), (2, 0)] ++
  (match f.crc with
    | some c => pack [(16, c)]
    | none => []) ++ f.body

/-- Field values fit their fields. -/
structure Frame.Ok (f : Frame) : Prop where
  profile : f.profile < 4
  frequency : f.frequency < 16
  channels : f.channels < 8
  length : f.headerSize + f.body.length < 8192
  body : f.body ≠ []

end Verif.Demux.Spec

import Verif.Ts.Spec
import Verif.Pes.Spec
/-
What a receiver gets out of a multiplexed transport stream: the PES packets of a pid, and in them elementary stream data
(H.264 byte stream format, ISO/IEC 14496-10 Annex B; ADTS frames, ISO/IEC 14496-3).
-/
namespace Verif.TsMux.Spec
open Fields

/-- Packets of one pid cut at payload starts: (what comes before the first start, the units). -/
def group : List Ts.Spec.Packet → List UInt8 × List (List UInt8)
  | [] => ([], [])
  | p :: ps =>
    let g := group ps
    if p.start then ([], (p.payload ++ g.1) :: g.2) else (p.payload ++ g.1, g.2)

/-- The units (PES packets) carried on a pid. -/
def units (ps : List Ts.Spec.Packet) (pid : Nat) : List (List UInt8) := (group (ps.filter (fun p => p.pid == pid))).2

/-- NAL units as stored in an MP4 sample: each preceded by its length in four bytes. -/
def lengthPrefixed (nals : List (List UInt8)) : List UInt8 := nals.flatMap fun n => pack [(32, n.length)] ++ n

/-- NAL units in byte stream format: each preceded by a start code. -/
def byteStream (nals : List (List UInt8)) : List UInt8 := nals.flatMap fun n => [0, 0, 0, 1] ++ n

/-- The NAL units of an access unit in a transport stream: an access unit delimiter for any slice type, the parameter sets
on key frames, and the units of the sample. -/
def accessUnit (sps pps : List UInt8) (key : Bool) (nals : List (List UInt8)) : List (List UInt8) :=
  [[0x09, 0xf0]] ++ (if key then [sps, pps] else []) ++ nals

/-- An ADTS frame without CRC around `body`: object type minus one, sampling frequency index, channel configuration, length. -/
def IsAdtsFrame (profile freq channels : Nat) (body frame : List UInt8) : Prop :=
  read [12, 1, 2, 1, 2, 4, 1, 3, 1, 1, 1, 1, 13, 11, 2] frame =
      some [0xFFF, 0, 0, 1, profile, freq, 0, channels, 0, 0, 0, 0, frame.length, 0x7FF, 0] ∧
    frame.drop 7 = body

end Verif.TsMux.Spec

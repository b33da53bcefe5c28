import Verif.Pes.Spec
/-
ISO/IEC 13818-1 2.4.3.6: the header of a PES packet with all its optional fields, as a receiver has to read it. The payload starts behind the
PES_header_data_length bytes, whatever they are.
-/
namespace Verif.Demux.Spec
open Fields

/-- Streams whose PES packets have no header behind the length: program_stream_map, padding_stream, private_stream_2, ECM, EMM, DSMCC_stream,
ITU-T H.222.1 type E, program_stream_directory. -/
def noHeader : List Nat := [0xBC, 0xBE, 0xBF, 0xF0, 0xF1, 0xF2, 0xF8, 0xFF]

/-- The widths of: start code, stream id, packet length, '10', scrambling, priority, alignment, copyright, original, flags for PTS, DTS, ESCR, ES rate,
trick mode, copy info, CRC, extension; header data length. -/
def pesWidths : List Nat := [24, 8, 16, 2, 2, 1, 1, 1, 1, 1, 1, 1, 1, 1, 1, 1, 1, 8]

/-- A time stamp. -/
def stamp (b : List UInt8) : Option Nat :=
  match read [4, 3, 1, 15, 1, 15, 1] b with
  | some [_, a, _, m, _, l, _] => some (a * 2 ^ 30 + m * 2 ^ 15 + l)
  | _ => none

/-- A PES packet with a header. DTS without PTS is forbidden. -/
def pes (b : List UInt8) : Option Pes.Spec.Packet :=
  match read pesWidths b with
  | some [code, id, len, two, _, _, _, _, _, p, d, _, _, _, _, _, _, n] =>
    if code ≠ 1 ∨ two ≠ 2 ∨ id ∈ noHeader ∨ b.length < 9 + n ∨ n < 5 * p + 5 * d ∨ (p = 0 ∧ d = 1) then none
    else some ⟨id, len, if p = 1 then stamp (b.drop 9) else none, if d = 1 then stamp (b.drop 14) else none, b.drop (9 + n)⟩
  | _ => none

def byteAt (b : List UInt8) (i : Nat) : Nat := (b[i]?.map (·.toNat)).getD 0

/-- Number of bytes of a PES extension: flags; private data; pack header with its length; sequence counter; P-STD buffer; extension field with its length. -/
def extensionLength (b : List UInt8) : Nat :=
  match read [1, 1, 1, 1, 3, 1] b with
  | some [priv, pack, seq, pstd, _, ext] =>
    let o1 := 1 + 16 * priv
    let o2 := o1 + pack * (1 + byteAt b o1)
    let o3 := o2 + 2 * seq + 2 * pstd
    o3 + ext * (1 + byteAt b o3 % 128)
  | _ => 1

/-- No CRC; a trick mode is fast or slow forward or reverse or freeze (0 to 3); the fields announced by the flags fit into the header. -/
def SimplePes (b : List UInt8) : Prop :=
  ∀ c sid len x1 x2 x3 x4 x5 x6 p d escr rate trick copy crc ext n,
    read pesWidths b = some [c, sid, len, x1, x2, x3, x4, x5, x6, p, d, escr, rate, trick, copy, crc, ext, n] →
    crc = 0 ∧ (trick = 1 → byteAt b (9 + 5 * p + 5 * d + 6 * escr + 3 * rate) < 128) ∧
      5 * p + 5 * d + 6 * escr + 3 * rate + trick + copy +
        ext * extensionLength (b.drop (9 + 5 * p + 5 * d + 6 * escr + 3 * rate + trick + copy)) ≤ n

end Verif.Demux.Spec

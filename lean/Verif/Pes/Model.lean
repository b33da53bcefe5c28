import Verif.Ts.Model
/-
Model of the PES header writer: `CPESWrite` (/repo/src/mg/media/tswrite.h 127-246) and `PesData::put`
(/repo/src/mg/media/mp4/mpeg2ts.fl 558-566, 664-845) for the stream ids the program uses (neither private_stream_2 nor
padding_stream).
-/
namespace Verif.Pes
open Fields Ts

/-- The fields of `PesData` that `WritePesHeader` sets; everything else is 0 (init_pes, tswrite.h 133-155). -/
structure Pes where
  streamId : Nat
  pts : Option Clock
  dts : Option Clock
  escr : Option Clock
  headerDataLength : Nat
  packetLength : Nat
deriving Repr

/-- `init_pes`, tswrite.h 133-155. -/
def initPes (streamId : Nat) : Pes :=
  { streamId := streamId, pts := none, dts := none, escr := none, headerDataLength := 0, packetLength := 3 }

/-- `set_pts_dts`, tswrite.h 167-218; `none` stands for UINT64_MAX. -/
def setPtsDts (p : Pes) (pts dts pcr : Option Nat) : Pes :=
  let p := match pts with
    | some t => { p with pts := some (toMpegTime t), headerDataLength := p.headerDataLength + 5 }
    | none => p
  let p := match dts with
    | some t => { p with dts := some (toMpegTime t), headerDataLength := p.headerDataLength + 5 }
    | none => p
  match pcr with
    | some t => { p with escr := some (toMpegTime t), headerDataLength := p.headerDataLength + 6 }
    | none => p

/-- `close_pes`, tswrite.h 157-165 (`unsigned int` arithmetic; MAX_PES_SIZE is 65535, tswrite.h 27). -/
def closePes (p : Pes) (bodySize : Nat) : Pes :=
  { p with
    packetLength := if bodySize = 0 ∨ 65535 ≤ bodySize then 0 else (p.packetLength + p.headerDataLength + bodySize) % 2 ^ 32 }

/-- A time stamp of the header with its four bit prefix, mpeg2ts.fl 692-716. -/
def stampFields (pre : Nat) (c : Clock) : List (Nat × Nat) :=
  [(4, pre), (3, c.t32_30), (1, 1), (15, c.t29_15), (1, 1), (15, c.t14_0), (1, 1)]

def flag {α : Type} (o : Option α) : Nat := if o.isSome then 1 else 0

/-- `PesData::put`, mpeg2ts.fl 558-566, 664-845: prefix, id, length; '10', scrambling, priority, alignment, copyright, original 0;
flags; header data length; the stamps. ES rate, trick mode, copy info, CRC and extension flags are 0. `reserved` of the ESCR is 0.
The stuffing count `(PES_header_data_length*8 - size) / 8` is 0, because the length is the size of the stamps. -/
def putPes (p : Pes) : List UInt8 :=
  pack ([(24, 1), (8, p.streamId), (16, p.packetLength), (2, 2), (2, 0), (1, 0), (1, 0), (1, 0), (1, 0),
      (1, flag p.pts), (1, flag p.dts), (1, flag p.escr), (1, 0), (1, 0), (1, 0), (1, 0), (1, 0), (8, p.headerDataLength)] ++
    (match p.pts with
      | some c => stampFields (3 &&& (2 ||| flag p.dts)) c
      | none => []) ++
    (match p.dts with
      | some c => stampFields 1 c
      | none => []) ++
    (match p.escr with
      | some c => [(2, 0), (3, c.t32_30), (1, 1), (15, c.t29_15), (1, 1), (15, c.t14_0), (1, 1), (9, c.ext), (1, 1)]
      | none => [])) ++
    List.replicate (((p.headerDataLength * 8 - ((flag p.pts) * 40 + (flag p.dts) * 40 + (flag p.escr) * 48)) % 2 ^ 32) / 8) 0xFF

/-- `WritePesHeader`, tswrite.h 222-243: the bytes put. -/
def writePesHeader (streamId : Nat) (pts dts pcr : Option Nat) (bodySize : Nat) : List UInt8 :=
  putPes (closePes (setPtsDts (initPes streamId) pts dts pcr) bodySize)

end Verif.Pes

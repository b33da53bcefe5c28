import Verif.Fields.Spec
/-
Model of the transport stream reader: `Transport_Packet::get`, `Adaptation_Field::get`, `PesBase::get`, `PesData::get` (what flavor generates from
/repo/src/mg/media/mp4/mpeg2ts.fl 558-878, 899-993, 1255-1310) and `tspacket`, `ts_pes`, `TSProgramElementaryStream(Analyze)`
(/repo/src/mg/media/ts.h 56-238, 526-920).
A `getbits` takes bits from the front of what is left of the stream and throws EndOfData when there are not enough (properties C05, C06), so
the state of a bitstream is the list of bits left. What the generated code does when a constant field has another value is not modelled: the
field is read and ignored. Assertions (debug only) and the texts printed are not modelled.
-/
namespace Verif.Demux
open Fields

/-- `getbits` for each width in turn: the values and what is left; `none` is EndOfData. -/
def takeBits (ws : List Nat) (s : List Bool) : Option (List Nat × List Bool) := (readBits ws s).map (·, s.drop ws.sum)

/-- Reading `w` bits nobody looks at, when `c`. -/
def skipIf (c : Bool) (w : Nat) (s : List Bool) : Option (List Bool) :=
  if c then (if w ≤ s.length then some (s.drop w) else none) else some s

/-- What is kept of an `Adaptation_Field`. -/
structure AF where
  len : Nat
  randomAccess : Nat
  pcr : Option (Nat × Nat × Nat × Nat)
deriving DecidableEq, Repr

/-- program_clock_ref_1 .. program_clock_reference_extension, mpeg2ts.fl 915-925. -/
def getPcr (flag : Nat) (s : List Bool) : Option (Option (Nat × Nat × Nat × Nat) × List Bool) :=
  if flag = 1 then
    match takeBits [3, 15, 15, 6, 9] s with
    | some ([a, b, c, _, e], s) => some (some (a, b, c, e), s)
    | _ => none
  else some (none, s)

/-- Private data, mpeg2ts.fl 946-956: the bits counted for it (the length byte is not) and what is left. -/
def getPrivate (flag : Nat) (s : List Bool) : Option (Nat × List Bool) :=
  if flag = 1 then
    match takeBits [8] s with
    | some ([n], s) => (skipIf true (n * 8) s).map (n * 8, ·)
    | _ => none
  else some (0, s)

/-- Adaptation field extension, mpeg2ts.fl 957-976: the bits counted for it and what is left (`skipbits` stops at the end). -/
def getExtension (flag : Nat) (s : List Bool) : Option (Nat × List Bool) :=
  if flag = 1 then
    match takeBits [8] s with
    | some ([n], s) => some (n / 8, s.drop (n * 8))
    | _ => none
  else some (0, s)

/-- The part of `Adaptation_Field::get` after the flags, mpeg2ts.fl 911-993. -/
def getAFBody (len ra pcrF opcrF splF privF extF : Nat) (s : List Bool) : Option (AF × List Bool) :=
  (getPcr pcrF s).bind fun (pcr, s) =>
  (skipIf (opcrF == 1) 48 s).bind fun s =>
  (skipIf (splF == 1) 8 s).bind fun s =>
  (getPrivate privF s).bind fun (priv, s) =>
  (getExtension extF s).bind fun (ext, s) =>
  let total := 8 + (if pcrF = 1 then 48 else 0) + (if opcrF = 1 then 48 else 0) + (if splF = 1 then 8 else 0) + priv + ext
  some (⟨len, ra, pcr⟩, if total / 8 < len then s.drop (len * 8 - total) else s)

/-- `Adaptation_Field::get`, mpeg2ts.fl 899-993; without the flags the constructor's values stay (995-1000). -/
def getAF (s : List Bool) : Option (AF × List Bool) :=
  match takeBits [8] s with
  | some ([len], s) =>
    if 0 < len ∧ len ≤ 183 then
      match takeBits [1, 1, 1, 1, 1, 1, 1, 1] s with
      | some ([_, ra, _, pcrF, opcrF, splF, privF, extF], s) => getAFBody len ra pcrF opcrF splF privF extF s
      | _ => none
    else some (⟨len, 0, none⟩, s)
  | _ => none

/-- The fields of a `Transport_Packet` the program uses. -/
structure TPacket where
  err : Bool
  start : Bool
  pid : Nat
  af : Option AF
  cc : Nat
  /-- payload_byte or payload_after_adaptation_byte; `none` when payload_field is 0 -/
  payload : Option (List UInt8)
deriving DecidableEq, Repr

/-- `n` bytes in 8 bit fields. -/
def takeBytes (n : Nat) (s : List Bool) : Option (List UInt8 × List Bool) :=
  if 8 * n ≤ s.length then some (bytesOfBits (s.take (8 * n)), s.drop (8 * n)) else none

/-- The part of `Transport_Packet::get` after the four header bytes, mpeg2ts.fl 1287-1310. With payload_field and an
adaptation_field_length above 183 the program computes `183 - length` in `unsigned int` (ts.h 157) and copies foreign memory; that is not
modelled (no payload here). -/
def getBody (start pid cc aflag pay : Nat) (s : List Bool) : Option (TPacket × List Bool) :=
  if aflag = 1 then
    (getAF s).bind fun (af, s) =>
    if pay = 1 ∧ af.len ≤ 183 then
      (takeBytes (183 - af.len) s).map fun (p, s) => (⟨false, start == 1, pid, some af, cc, some p⟩, s)
    else some (⟨false, start == 1, pid, some af, cc, none⟩, s)
  else if pay = 1 then
    (takeBytes 184 s).map fun (p, s) => (⟨false, start == 1, pid, none, cc, some p⟩, s)
  else some (⟨false, start == 1, pid, none, cc, none⟩, s)

/-- `Transport_Packet::get`, mpeg2ts.fl 1255-1310, on the bytes left: `nextcode(0x47, 8, 8)` skips to the next 0x47; of a packet with
the error flag only that bit is read. What is left is aligned to bytes by the next `nextcode` (bitstream.h 497-514, 1077); the file has whole
bytes. With the error flag the other fields keep the values of the packet before; nobody looks at them except for the pid. `none` is
EndOfData. -/
def getPacket (bytes : List UInt8) : Option (TPacket × List UInt8) :=
  match bytes.dropWhile (· ≠ 0x47) with
  | [] => none
  | _ :: l =>
    match takeBits [1] (bitsOf l) with
    | some ([err], s) =>
      (if err = 1 then some (⟨true, false, 0, none, 0, none⟩, s)
        else
          match takeBits [1, 1, 13, 2, 1, 1, 4] s with
          | some ([start, _, pid, _, aflag, pay, cc], s) => getBody start pid cc aflag pay s
          | _ => none).map fun (p, s) => (p, bytesOfBits (s.drop (s.length % 8)))
    | _ => none

/-- The packets `process_packets` (tsparse.h 830-890) reads, until EndOfData or the end of the file. The fuel is the number of bytes. -/
def packetsLoop : Nat → List UInt8 → List TPacket
  | 0, _ => []
  | n + 1, bytes =>
    if bytes = [] then []
    else
      match getPacket bytes with
      | none => []
      | some (p, rest) => p :: packetsLoop n rest

def packets (bytes : List UInt8) : List TPacket := packetsLoop bytes.length bytes

/-- The fields of `PesData` the program uses. A field that a packet does not have keeps its old value. -/
structure Hdr where
  streamId : Nat
  length : Nat
  ptsFlag : Nat
  dtsFlag : Nat
  dataLength : Nat
  pts : Nat × Nat × Nat
  dts : Nat × Nat × Nat
deriving DecidableEq, Repr

/-- A time stamp, mpeg2ts.fl 692-716. -/
def getStamp (flag : Nat) (old : Nat × Nat × Nat) (s : List Bool) : Option ((Nat × Nat × Nat) × List Bool) :=
  if flag = 1 then
    match takeBits [4, 3, 1, 15, 1, 15, 1] s with
    | some ([_, a, _, b, _, c, _], s) => some ((a, b, c), s)
    | _ => none
  else some (old, s)

/-- Trick mode, mpeg2ts.fl 740-768: three bits, and five more for control values 0 to 3. -/
def getTrick (flag : Nat) (s : List Bool) : Option (List Bool) :=
  if flag = 1 then
    match takeBits [3] s with
    | some ([c], s) => skipIf (decide (c ≤ 3)) 5 s
    | _ => none
  else some s

/-- A field with a length byte (`n` is taken from its low `w` bits) and that many bytes, skipped with `skipbits` or read. -/
def getCounted (flag w : Nat) (s : List Bool) : Option (Nat × List Bool) :=
  if flag = 1 then
    match takeBits [8 - w, w] s with
    | some ([_, n], s) => some (8 + n * 8, s.drop (n * 8))
    | _ => none
  else some (0, s)

/-- PES extension, mpeg2ts.fl 781-833: the bits counted and what is left. (Bytes of the extension field are read one by one; a missing one is
noticed when stuffing or data are read.) -/
def getPesExt (flag : Nat) (s : List Bool) : Option (Nat × List Bool) :=
  if flag = 1 then
    match takeBits [1, 1, 1, 1, 3, 1] s with
    | some ([priv, pack, seq, pstd, _, ext], s) =>
      (skipIf (priv == 1) 128 s).bind fun s =>
      (getCounted pack 8 s).bind fun (n1, s) =>
      (skipIf (seq == 1) 16 s).bind fun s =>
      (skipIf (pstd == 1) 16 s).bind fun s =>
      (getCounted ext 7 s).bind fun (n2, s) =>
      some (8 + (if priv = 1 then 128 else 0) + n1 + (if seq = 1 then 16 else 0) + (if pstd = 1 then 16 else 0) + n2, s)
    | _ => none
  else some (0, s)

/-- Bits of stuffing, mpeg2ts.fl 838-842: `(PES_header_data_length*8 - size) / 8` bytes in `unsigned int`. -/
def stuffingBits (dataLength size : Nat) : Nat := (dataLength * 8 + 2 ^ 32 - size % 2 ^ 32) % 2 ^ 32 / 8 * 8

/-- The optional fields and the stuffing bytes, mpeg2ts.fl 689-842. `size` counts the bits read (8 for the CRC of 16 bits, line 779). -/
def getPesFields (h : Hdr) (escr rate trick copy crc ext : Nat) (s : List Bool) : Option (Hdr × List Bool) :=
  (getStamp h.ptsFlag h.pts s).bind fun (pts, s) =>
  (getStamp h.dtsFlag h.dts s).bind fun (dts, s) =>
  (skipIf (escr == 1) 48 s).bind fun s =>
  (skipIf (rate == 1) 24 s).bind fun s =>
  (getTrick trick s).bind fun s =>
  (skipIf (copy == 1) 8 s).bind fun s =>
  (skipIf (crc == 1) 16 s).bind fun s =>
  (getPesExt ext s).bind fun (e, s) =>
  let size := (if h.ptsFlag = 1 then 40 else 0) + (if h.dtsFlag = 1 then 40 else 0) + (if escr = 1 then 48 else 0) +
    (if rate = 1 then 24 else 0) + (if trick = 1 then 8 else 0) + (if copy = 1 then 8 else 0) + (if crc = 1 then 8 else 0) + e
  (skipIf true (stuffingBits h.dataLength size) s).map fun s => ({ h with pts := pts, dts := dts }, s)

/-- `PesData::get`, mpeg2ts.fl 558-566, 664-845. -/
def pesGet (old : Hdr) (s : List Bool) : Option (Hdr × List Bool) :=
  match takeBits [24, 8, 16] s with
  | some ([_, sid, len], s) =>
    if sid ≠ 0xBF ∧ sid ≠ 0xBE then
      match takeBits [2, 2, 1, 1, 1, 1, 1, 1, 1, 1, 1, 1, 1, 1, 8] s with
      | some ([_, _, _, _, _, _, ptsF, dtsF, escr, rate, trick, copy, crc, ext, n], s) =>
        getPesFields { old with streamId := sid, length := len, ptsFlag := ptsF, dtsFlag := dtsF, dataLength := n } escr rate trick copy crc ext s
      | _ => none
    else some ({ old with streamId := sid, length := len }, s)
  | _ => none

/-- What looking for the description of a stream in a payload gives (`UpdateLookUp`, ts.h 853-876): found, not there, or an exception of the
parser. -/
inductive Lookup where
  | found | missing | fail
deriving DecidableEq, Repr

/-- The receiver of a pid: `InfoTSProgramElementaryStream`, or `TSProgramElementaryStreamAnalyze` with `getMinAnalyzeSize` and `UpdateLookUp`. -/
inductive Kind where
  | info
  | analyze (min : Nat) (lookup : List UInt8 → Lookup)

/-- `LookUp` of the AAC receiver with `getMinAnalyzePayloadSize` 15 (tsparse.h 216-236, ts.h 823-843); the ADTS header read there has at most nine
bytes. -/
def aacLookup : List UInt8 → Lookup
  | a :: b :: r =>
    if 15 ≤ (a :: b :: r).length then
      if a = 0xFF ∧ b.toNat / 16 = 15 then .found else aacLookup (b :: r)
    else .missing
  | _ => .missing

/-- `TSProgramElementaryStreamAnalyzeAAC`, `getMinAnalyzeSize` 30. -/
def Kind.aac : Kind := .analyze 30 aacLookup

/-- `LookUp` of the H.264 receiver (tsparse.h 407-433): a NAL unit of type 7 with `getMinAnalyzePayloadSize` 25 bytes from its start code;
`sps` tells whether reading the parameter set (and what follows it) from there works. -/
def h264Lookup (sps : List UInt8 → Bool) : List UInt8 → Lookup
  | a :: b :: c :: d :: r =>
    if 25 ≤ (a :: b :: c :: d :: r).length then
      if a = 0 ∧ b = 0 ∧ c = 1 ∧ d.toNat % 32 = 7 then (if sps r then .found else .fail) else h264Lookup sps (b :: c :: d :: r)
    else .missing
  | _ => .missing

/-- `TSProgramElementaryStreamAnalyzeH264`, `getMinAnalyzeSize` 100. -/
def Kind.h264 (sps : List UInt8 → Bool) : Kind := .analyze 100 (h264Lookup sps)

/-- A call of `ReceiveElementaryStreamData`: header, buffer, position of the data in it, and the random access indicator of the first adaptation
field (`first_adaptation`), if there is one. -/
structure Del where
  hdr : Hdr
  payload : List UInt8
  pos : Nat
  first : Option Nat
deriving DecidableEq, Repr

/-- State of a `ts_pes` (ts.h 58-75, 526-533, 745-750, 806-809), and the calls made so far. -/
structure PS where
  payload : List UInt8
  pos : Nat
  got : Bool
  first : Option Nat
  hdr : Hdr
  hasData : Bool
  streamId : Nat
  written : Bool
  hasStruct : Bool
  out : List Del
deriving DecidableEq, Repr

/-- A new object; the `PesData` is not initialised (`junk`). -/
def PS.init (junk : Hdr) : PS :=
  { payload := [], pos := 0, got := false, first := none, hdr := junk, hasData := false, streamId := 0, written := false, hasStruct := false, out := [] }

/-- `Receive`, ts.h 752-759 and 878-894; `.error` is an exception. The receiver's return value is true (tsparse.h 176). Exceptions of the
receiver are the subject of `splitNals`. -/
def PS.receive (k : Kind) (s : PS) : Except PS PS :=
  let d : Del := ⟨s.hdr, s.payload, s.pos, s.first⟩
  match k with
  | .info => .ok (if s.hasData then { s with out := s.out ++ [d], written := true } else s)
  | .analyze _ lookup =>
    if s.hasStruct then
      if !s.written && s.hasData && lookup s.payload == .fail then .error s
      else .ok (if s.hasData then { s with out := s.out ++ [d], written := true } else s)
    else .ok s

/-- `incomplete_pes`, tsparse.h 183-186, ts.h 811-816. -/
def PS.incomplete (k : Kind) (s : PS) : PS :=
  match k with
  | .info => s
  | .analyze _ _ => { s with hasStruct := false }

/-- `nextcode(0x000001, 24, 8)` on a buffer: bytes skipped, and what is left; `none` is EndOfData. -/
def findCode : List UInt8 → Option (Nat × List UInt8)
  | a :: b :: c :: r =>
    if a = 0 ∧ b = 0 ∧ c = 1 then some (0, a :: b :: c :: r) else (findCode (b :: c :: r)).map fun (n, l) => (n + 1, l)
  | _ => none

/-- `ts_pes::BeforeUnitStart`, ts.h 562-611. When `PesData::get` fails some fields may have been overwritten; that is not modelled. -/
def PS.before (k : Kind) (s : PS) : Except PS PS :=
  let tail (s : PS) : Except PS PS :=
    if s.hdr.length ≠ 0 then .ok s
    else
      match s.receive k with
      | .ok s => .ok { s with hasData := false }
      | .error s => .error s
  if s.hasData then tail s
  else
    match findCode s.payload with
    | none => .ok s
    | some (_, l) =>
      match pesGet s.hdr (bitsOf l) with
      | none => .ok s
      | some (h, rest) =>
        let s := { s with hdr := h, pos := (8 * s.payload.length - rest.length) / 8 }
        if h.length ≠ 0 then tail { s.incomplete k with hasData := false } else tail { s with hasData := true }

/-- `ts_pes::process`, ts.h 612-693. `skipbits` takes a `short` (bitstream.h 1119). -/
def PS.process (k : Kind) (s : PS) : Except PS PS :=
  if s.payload.length < 6 then .ok s
  else
    match findCode s.payload with
    | none => .ok s
    | some (skip, l) =>
      match takeBits [24, 8, 16] (bitsOf l) with
      | some ([_, sid, len], _) =>
        if len = 0 then .ok s
        else if len + 6 > s.payload.length - skip then .ok s
        else
          match pesGet s.hdr ((bitsOf s.payload).drop (skip * 8 % 65536)) with
          | none => .error s
          | some (h, rest) =>
            let s := { s with hdr := h, pos := (8 * s.payload.length - rest.length) / 8, hasData := true }
            if s.streamId = 0 then ({ s with streamId := sid }).receive k
            else if s.streamId ≠ sid then .error s
            else s.receive k
      | _ => .error s

/-- `TSProgramElementaryStreamAnalyze::process`, ts.h 895-905: exceptions are swallowed while there is no description of the stream. -/
def PS.analyze (k : Kind) (s : PS) : Except PS PS :=
  match k with
  | .info => s.process k
  | .analyze min lookup =>
    let go (s : PS) : Except PS PS :=
      match s.process k with
      | .ok s => .ok s
      | .error s => if s.hasStruct then .error s else .ok s
    if min ≤ s.payload.length ∧ s.hasStruct = false then
      match lookup s.payload with
      | .fail => .error s
      | .found => go { s with hasStruct := true }
      | .missing => go s
    else go s

/-- The payload of a packet, ts.h 152-180 and `addPayload` (95-102). -/
def PS.append (s : PS) (p : TPacket) : PS :=
  match p.payload with
  | none => s
  | some [] => s
  | some (b :: l) =>
    { s with payload := s.payload ++ b :: l, got := true, first := if s.first = none then p.af.map (·.randomAccess) else s.first }

/-- `tspacket::add`, ts.h 127-184. -/
def PS.add (k : Kind) (s : PS) (p : TPacket) : Except PS PS :=
  if p.err then .ok s
  else if p.start then
    match (if s.got then s.before k else .ok s) with
    | .error s => .error s
    | .ok s => (({ s with payload := [], pos := 0 }).append p).analyze k
  else (s.append p).analyze k

/-- `ts_pes::Reset`, ts.h 702-706, 114-125. -/
def PS.reset (s : PS) : PS := { s with payload := [], pos := 0, got := false, first := none, hasData := false }

/-- `CTSProcessor::process` for a packet of an elementary stream, tsparse.h 715-731. -/
def PS.step (k : Kind) (s : PS) (p : TPacket) : Except PS PS :=
  match s.add k p with
  | .error s => .error s
  | .ok s => .ok (if s.hasData then s.reset else s)

/-- The packets of a pid one after another. -/
def PS.run (k : Kind) (s : PS) : List TPacket → Except PS PS
  | [] => .ok s
  | p :: ps =>
    match s.step k p with
    | .error s => .error s
    | .ok s => s.run k ps

/-- `End`, ts.h 205-208. -/
def PS.finish (k : Kind) (s : PS) : Except PS PS := s.before k

end Verif.Demux

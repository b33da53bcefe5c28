import Verif.Fields.Spec
import Verif.Crc.Model
/-
Model of the transport stream writer: `CTSWrite` (/repo/src/mg/media/tswrite.h 265-654) and the `put` functions that
flavor generates for the classes of /repo/src/mg/media/mp4/mpeg2ts.fl. A `put` is a sequence of `putbits` calls; the
bytes these produce are `Fields.pack` of the (width, value) list (property C05). `CTSW` output is the list of bytes
appended. `unsigned char` counters wrap at 256. Error and priority fields that are constant in the program are constants
here. Assertions (debug only) are not modelled.
-/
namespace Verif.Ts
open Fields

/-- The four numbers `MpegTime::ToMpegTime` computes. -/
structure Clock where
  t32_30 : Nat
  t29_15 : Nat
  t14_0 : Nat
  ext : Nat
deriving DecidableEq, Repr

/-- `MpegTime::ToMpegTime`, mpeg2ts.fl 128-145 (`uint64_t` arithmetic, results `unsigned int`). -/
def toMpegTime (time : Nat) : Clock :=
  let t := time / 10000
  let base := (t * 27000 % 2 ^ 64) / 300
  let ext := (t * 27000 % 2 ^ 64) % 300
  { t32_30 := (base >>> 30) % 2 ^ 32, t29_15 := ((base >>> 15) &&& 0x2FFFFFFF) % 2 ^ 32, t14_0 := base &&& 0x7FFF,
    ext := ext }

/-- The fields of `Adaptation_Field` the program uses. -/
structure AF where
  len : Nat
  disc : Nat
  ra : Nat
  pcrFlag : Nat
  pcr : Clock
deriving DecidableEq, Repr

/-- `init_adaptation`, tswrite.h 276-290; the clock fields are not initialised there (`junk`). -/
def initAF (junk : Clock) : AF := { len := 1, disc := 0, ra := 0, pcrFlag := 0, pcr := junk }

/-- The flags and clock fields of `Adaptation_Field::put`, mpeg2ts.fl 899-925; OPCR, splicing, private data and extension
flags are 0 (init_adaptation), `reserved` is 0. -/
def AF.fields (af : AF) : List (Nat × Nat) :=
  [(1, af.disc), (1, af.ra), (1, 0), (1, af.pcrFlag), (1, 0), (1, 0), (1, 0), (1, 0)] ++
    if af.pcrFlag = 1 then [(3, af.pcr.t32_30), (15, af.pcr.t29_15), (15, af.pcr.t14_0), (6, 0), (9, af.pcr.ext)] else []

/-- `total_bits / 8` in `Adaptation_Field::put`, mpeg2ts.fl 913-925. -/
def AF.total (af : AF) : Nat := if af.pcrFlag = 1 then 7 else 1

/-- `Adaptation_Field::put`, mpeg2ts.fl 899-993: length byte, and for 0 < length ≤ 183 flags, clock, zero stuffing. -/
def AF.bytes (af : AF) : List UInt8 :=
  pack [(8, af.len)] ++
    if 0 < af.len ∧ af.len ≤ 183 then
      pack af.fields ++ (if af.total < af.len then List.replicate (af.len - af.total) 0 else [])
    else []

/-- `Transport_Packet::put`, mpeg2ts.fl 1255-1310, with `init_tp` (tswrite.h 292-302): error, priority and scrambling 0,
payload_field 1. `payload` is what was copied into payload_byte / payload_after_adaptation_byte. -/
def packet (pusi pid : Nat) (af : Option AF) (cc : Nat) (payload : List UInt8) : List UInt8 :=
  pack [(8, 0x47), (1, 0), (1, pusi), (1, 0), (13, pid), (2, 0), (1, if af.isSome then 1 else 0), (1, 1), (4, cc)] ++
    match af with
    | some af => af.bytes ++ (if af.len ≤ 183 then payload.take (183 - af.len) else [])
    | none => payload.take 184

/-- `memcpy(dst, pbytes + off, n)`: `bytes` is the payload given by the caller, `beyond` what follows it in memory. -/
def memcpy (bytes : List UInt8) (beyond : Nat → UInt8) (off n : Nat) : List UInt8 :=
  ((bytes ++ (List.range n).map beyond).drop off).take n

/-- `first_ts_packet` after tswrite.h 441-465. -/
def firstSize (ra : Bool) (pcr : Option Nat) : Nat :=
  if ra then (if pcr.isSome then 184 - 2 - 6 else 184 - 2) else 184

/-- `adaptation_field_length` before the size test, tswrite.h 276-279, 446-465. -/
def afLen0 (ra : Bool) (pcr : Option Nat) : Nat := if ra && pcr.isSome then 7 else 1

/-- `adaptation_field_length` of the first packet, tswrite.h 471-492. -/
def afLen (size : Nat) (ra : Bool) (pcr : Option Nat) : Nat :=
  if size < firstSize ra pcr then
    if firstSize ra pcr - size = 1 then 0
    else if !ra then afLen0 ra pcr + (firstSize ra pcr - 2 - size)
    else afLen0 ra pcr + (firstSize ra pcr - size)
  else afLen0 ra pcr

/-- The adaptation field of the first packet, tswrite.h 405-420, 446-498. -/
def firstAF (size : Nat) (ra : Bool) (pcr : Option Nat) (junk : Clock) : AF :=
  { len := afLen size ra pcr, disc := 0, ra := if ra then 1 else 0,
    pcrFlag := if ra && pcr.isSome then 1 else 0,
    pcr := if ra then (match pcr with | some t => toMpegTime t | none => junk) else junk }

/-- `body_size` of the first packet, tswrite.h 468, 494-506. -/
def firstBody (size : Nat) (ra : Bool) (pcr : Option Nat) : Nat :=
  if ra || decide (size < firstSize ra pcr) then 184 - 1 - afLen size ra pcr else 184

/-- The loop over full packets, tswrite.h 533-544; `cc` is `_continuity_counter[pid]`. -/
def fullLoop (pid : Nat) (bytes : List UInt8) (beyond : Nat → UInt8) : (n off cc : Nat) → List UInt8
  | 0, _, _ => []
  | n + 1, off, cc =>
    packet 0 pid none cc (memcpy bytes beyond off 184) ++ fullLoop pid bytes beyond n (off + 184) ((cc + 1) % 256)

/-- The bytes written by `output_ts`, tswrite.h 395-567. `cc0` is the counter of the pid before the call. For sizes below the
first packet size the C++ quotient and remainder are not positive, so that both later parts are empty, as with the
truncated subtraction here. `timePCR` is `none` for UINT64_MAX. -/
def outputBytes (cc0 pid : Nat) (bytes : List UInt8) (beyond : Nat → UInt8) (ra : Bool) (pcr : Option Nat) (junk : Clock) :
    List UInt8 :=
  let size := bytes.length
  let first := firstSize ra pcr
  let body := firstBody size ra pcr
  let af := firstAF size ra pcr junk
  let full := (size - first) / 184
  let last := (size - first) % 184
  packet 1 pid (if ra || decide (size < first) then some af else none) cc0 (memcpy bytes beyond 0 body) ++
    fullLoop pid bytes beyond full body ((cc0 + 1) % 256) ++
    if last > 0 then
      packet 0 pid (some { af with len := 183 - last, ra := 0, pcrFlag := 0 }) ((cc0 + 1 + full) % 256)
        (memcpy bytes beyond (body + full * 184) last)
    else []

/-- How often `output_ts` increments the counter: tswrite.h 508, 535, 552. -/
def outputCount (size : Nat) (ra : Bool) (pcr : Option Nat) : Nat :=
  1 + (size - firstSize ra pcr) / 184 + if (size - firstSize ra pcr) % 184 > 0 then 1 else 0

/-- `Pointer_Field` with pointer_field 0 followed by the `BaseSection` fields, mpeg2ts.fl 1078-1110, init_base tswrite.h
306-317. `reserved2` is never initialised. -/
def baseFields (tableId sectionLength id reserved2 : Nat) : List (Nat × Nat) :=
  [(8, 0), (8, tableId), (1, 1), (1, 0), (2, 0), (12, sectionLength), (16, id), (2, reserved2), (5, 0), (1, 1), (8, 0), (8, 0)]

/-- Program tables of a `CTSWrite`: streams put into `_pam` by `add_pam` (index, type, pid), the number of `add_pam` calls, and
uninitialised fields. -/
structure Tables where
  types : Nat → Nat
  pids : Nat → Nat
  count : Nat
  pcrPid : Nat
  junk1 : Nat
  junk2 : Nat
  junk3 : Nat

/-- A new `CTSWrite`: `init_pas`, `add_pas` with the default program map pid 0x1000 and program number 1, `init_pam`;
tswrite.h 319-364, 384-393. -/
def Tables.init (types pids : Nat → Nat) (junk1 junk2 junk3 : Nat) : Tables :=
  { types := types, pids := pids, count := 0, pcrPid := 0, junk1 := junk1, junk2 := junk2, junk3 := junk3 }

/-- `add_pam(pid, type, idx)`, tswrite.h 374-382 (without the continuity counter). -/
def Tables.addPam (t : Tables) (pid type idx : Nat) : Tables :=
  { t with
    types := fun i => if i = idx then type else t.types i
    pids := fun i => if i = idx then pid else t.pids i
    count := t.count + 1 }

/-- `_pam.section_length`: 9 (init_base) + 4 (init_pam) + 5 for every add_pam. -/
def Tables.pamLength (t : Tables) : Nat := 9 + 4 + 5 * t.count

/-- `Program_Association_Section::put`, mpeg2ts.fl 1112-1138: one entry, because section_length is 9 + 4. -/
def Tables.pasFields (t : Tables) : List (Nat × Nat) :=
  baseFields 0 13 1 t.junk1 ++ [(16, 1), (3, t.junk2), (13, 0x1000), (32, 0)]

/-- `Program_Map_Section::put`, mpeg2ts.fl 1176-1253: the loop runs until `section_length - 13` bytes are written, five per
stream (no descriptors). -/
def Tables.pamFields (t : Tables) : List (Nat × Nat) :=
  baseFields 2 t.pamLength 1 t.junk3 ++ [(3, 0), (13, t.pcrPid), (4, 0), (12, 0)] ++
    ((List.range t.count).flatMap fun i => [(8, t.types i), (3, 0), (13, t.pids i), (4, 0), (12, 0)]) ++ [(32, 0)]

/-- The table buffer after `put`, `flush`, `crc_32(get_buffer() + 1, section_length + 3 - 4)`, `set_position(size - 4)`,
`write_uint(crc)`, `flush`; tswrite.h 569-603. `addr` is the address of the buffer. -/
def withCrc (addr sectionLength : Nat) (buffer : List UInt8) : List UInt8 :=
  buffer.take (buffer.length - 4) ++
    pack [(32, (Crc.crc32 (addr + 1) (((buffer.drop 1).take (sectionLength + 3 - 4)).map UInt8.toBitVec)).toNat)]

/-- `_memory_pas` as output. -/
def Tables.pas (t : Tables) (addr : Nat) : List UInt8 := withCrc addr 13 (pack t.pasFields)

/-- `_memory_pam` as output. -/
def Tables.pam (t : Tables) (addr : Nat) : List UInt8 := withCrc addr t.pamLength (pack t.pamFields)

/-- State of a `CTSWrite` and the bytes it has written. -/
structure State where
  cc : Nat → Nat
  tables : Tables
  /-- `_memory_pas`, `_memory_pam` once they are built -/
  built : Option (List UInt8 × List UInt8)
  out : List UInt8

/-- `output_ts`, tswrite.h 395-567: the bytes and the counters. -/
def outputTs (s : State) (pid : Nat) (bytes : List UInt8) (beyond : Nat → UInt8) (ra : Bool) (pcr : Option Nat) (junk : Clock) :
    State :=
  { s with
    cc := fun p => if p = pid then (s.cc pid + outputCount bytes.length ra pcr) % 256 else s.cc p
    out := s.out ++ outputBytes (s.cc pid) pid bytes beyond ra pcr junk }

/-- `output_sections_tables`, tswrite.h 569-612: the tables are built at the first call. -/
def outputTables (s : State) (addr1 addr2 : Nat) (beyond : Nat → UInt8) (junk : Clock) : State :=
  let m := s.built.getD (s.tables.pas addr1, s.tables.pam addr2)
  let s := { s with built := some m }
  let s := outputTs s 0 m.1 beyond false none junk
  outputTs s 0x1000 m.2 beyond false none junk

/-- The loop of `fill_pid`, tswrite.h 643-649; `fuel` bounds the iterations (`fillPid` gives 16, which is enough:
`fill_aligns`). -/
def fillLoop (pid : Nat) (junk : Clock) : (fuel cc : Nat) → List UInt8 × Nat
  | 0, cc => ([], cc)
  | fuel + 1, cc =>
    if cc % 16 ≠ 0 then
      let r := fillLoop pid junk fuel ((cc + 1) % 256)
      (packet 0 pid (some { initAF junk with len := 183 }) cc [] ++ r.1, r.2)
    else ([], cc)

/-- `fill_pid`, tswrite.h 624-652. -/
def fillPid (s : State) (pid : Nat) (junk : Clock) : State :=
  let r := fillLoop pid junk 16 (s.cc pid)
  { s with cc := fun p => if p = pid then r.2 else s.cc p, out := s.out ++ r.1 }

/-- `add_pam`, tswrite.h 374-382. -/
def addPam (s : State) (pid type idx : Nat) : State :=
  { s with tables := s.tables.addPam pid type idx, cc := fun p => if p = pid then 0 else s.cc p }

/-- `set_pcr_pid`, tswrite.h 369-372. -/
def setPcrPid (s : State) (pid : Nat) : State := { s with tables := { s.tables with pcrPid := pid } }

/-- `set_sections_tables_continuity`, tswrite.h 614-619. -/
def setContinuity (s : State) (c : Nat) : State :=
  { s with cc := fun p => if p = 0x1000 then c % 256 else if p = 0 then c % 256 else s.cc p }

/-- A new `CTSWrite`, tswrite.h 384-393. Counters not yet in the map read as 0. -/
def init (types pids : Nat → Nat) (junk1 junk2 junk3 : Nat) : State :=
  { cc := fun _ => 0, tables := Tables.init types pids junk1 junk2 junk3, built := none, out := [] }

end Verif.Ts

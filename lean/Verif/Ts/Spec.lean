import Verif.Fields.Spec
import Verif.Crc.Spec
/-
ISO/IEC 13818-1 transport stream as a receiver reads it: packets of 188 bytes (2.4.3.2), adaptation field (2.4.3.4),
program association and program map sections (2.4.4).
-/
namespace Verif.Ts.Spec
open Fields

/-- What a packet says. -/
structure Packet where
  start : Bool
  pid : Nat
  cc : Nat
  randomAccess : Bool
  /-- program clock reference: 33 bit base, 9 bit extension -/
  pcr : Option (Nat × Nat)
  payload : List UInt8
deriving DecidableEq, Repr

/-- Reads one packet; `none` for anything that is not an intact packet with payload. -/
def parse (b : List UInt8) : Option Packet :=
  if b.length ≠ 188 then none
  else
    match read [8, 1, 1, 1, 13, 2, 2, 4] b with
    | some [0x47, 0, pusi, _, pid, 0, 1, cc] => some ⟨pusi == 1, pid, cc, false, none, b.drop 4⟩
    | some [0x47, 0, pusi, _, pid, 0, 3, cc] =>
      match read [8] (b.drop 4) with
      | some [len] =>
        if len > 183 then none
        else if len = 0 then some ⟨pusi == 1, pid, cc, false, none, b.drop 5⟩
        else
          match read [1, 1, 1, 1, 4] (b.drop 5) with
          | some [_, ra, _, 0, 0] => some ⟨pusi == 1, pid, cc, ra == 1, none, b.drop (5 + len)⟩
          | some [_, ra, _, 1, 0] =>
            if len < 7 then none
            else
              match read [33, 6, 9] (b.drop 6) with
              | some [base, _, ext] => some ⟨pusi == 1, pid, cc, ra == 1, some (base, ext), b.drop (5 + len)⟩
              | _ => none
          | _ => none
      | _ => none
    | _ => none

/-- The bytes are a sequence of intact packets saying `ps`. -/
def IsStream (bytes : List UInt8) (ps : List Packet) : Prop :=
  ∃ raw : List (List UInt8), bytes = raw.flatten ∧ raw.map parse = ps.map some

/-- 90 kHz value of a time in 100 ns units, at the millisecond resolution the program works with, as 33 bit number. -/
def clock90 (t : Nat) : Nat := t / 10000 * 90 % 2 ^ 33

/-- Counters as a receiver checks them: the packets of the pid, in order. -/
def counters (ps : List Packet) (pid : Nat) : List Nat := (ps.filter (fun p => p.pid == pid)).map (·.cc)

/-- The payload carried on a pid. -/
def payloadOf (ps : List Packet) (pid : Nat) : List UInt8 := (ps.filter (fun p => p.pid == pid)).flatMap (·.payload)

/-- Program entries (number, pid), four bytes each. -/
def entries4 : (n : Nat) → List UInt8 → Option (List (Nat × Nat))
  | 0, _ => some []
  | n + 1, b =>
    match read [16, 3, 13] b with
    | some [num, _, pid] => (entries4 n (b.drop 4)).map ((num, pid) :: ·)
    | _ => none

/-- Elementary stream entries (type, pid) without descriptors. -/
def entries5 : (n : Nat) → List UInt8 → Option (List (Nat × Nat))
  | 0, _ => some []
  | n + 1, b =>
    match read [8, 3, 13, 4, 12] b with
    | some [type, _, pid, _, 0] => (entries5 n (b.drop 5)).map ((type, pid) :: ·)
    | _ => none

/-- A section in a payload that starts with a pointer field 0: table id, id, and the bytes between the eight byte header and
the CRC. The CRC register over the whole section has to end at 0, and the payload ends with the section. -/
def section? (payload : List UInt8) : Option (Nat × Nat × List UInt8) :=
  match read [8, 8, 1, 1, 2, 12, 16, 2, 5, 1, 8, 8] payload with
  | some [0, tableId, 1, 0, _, len, id, _, 0, 1, 0, 0] =>
    if len < 9 ∨ 1021 < len ∨ payload.length ≠ len + 4 then none
    else if Crc.Spec.mpegCrc ((payload.drop 1).map UInt8.toBitVec) ≠ 0 then none
    else some (tableId, id, (payload.drop 9).take (len - 9))
  | _ => none

/-- A program association table: (program number, pid of its map). -/
def pat? (payload : List UInt8) : Option (List (Nat × Nat)) :=
  match section? payload with
  | some (0, _, body) => if body.length % 4 = 0 then entries4 (body.length / 4) body else none
  | _ => none

/-- A program map table without descriptors: program number, PCR pid and the streams (type, pid). -/
def pmt? (payload : List UInt8) : Option (Nat × Nat × List (Nat × Nat)) :=
  match section? payload with
  | some (2, program, body) =>
    match read [3, 13, 4, 12] body with
    | some [_, pcrPid, _, 0] =>
      if (body.length - 4) % 5 = 0 then (entries5 ((body.length - 4) / 5) (body.drop 4)).map ((program, pcrPid, ·)) else none
    | _ => none
  | _ => none

end Verif.Ts.Spec

import Verif.Fields.Spec
/-
Program specific information as ISO/IEC 13818-1 2.4.4 defines it.
-/
namespace Verif.Psi.Spec
open Fields

/-- The fields of a section header that a table can have any values in: the bit after section_syntax_indicator, reserved bits, the id (of the transport
stream or program), reserved bits, version, current_next_indicator, section number and last section number. -/
structure Head where
  bit : Nat
  res1 : Nat
  id : Nat
  res2 : Nat
  version : Nat
  current : Nat
  number : Nat
  last : Nat
deriving DecidableEq, Repr

/-- A section: header, body and CRC. -/
def sectionBytes (tableId : Nat) (h : Head) (body : List UInt8) (crc : Nat) : List UInt8 :=
  pack [(8, tableId), (1, 1), (1, h.bit), (2, h.res1), (12, body.length + 9), (16, h.id), (2, h.res2), (5, h.version),
    (1, h.current), (8, h.number), (8, h.last)] ++ body ++ pack [(32, crc)]

/-- Programs with the pids of their maps. `res` are the reserved bits, which can have any value. -/
def patBody (res : Nat) (programs : List (Nat × Nat)) : List UInt8 := programs.flatMap fun p => pack [(16, p.1), (3, res), (13, p.2)]

/-- Descriptors: tag and data. -/
def descriptors (ds : List (Nat × List UInt8)) : List UInt8 := ds.flatMap fun d => pack [(8, d.1), (8, d.2.length)] ++ d.2

/-- An elementary stream of a program. -/
structure Es where
  type : Nat
  pid : Nat
  info : List (Nat × List UInt8)
deriving DecidableEq, Repr

def esBytes (res : Nat) (e : Es) : List UInt8 :=
  pack [(8, e.type), (3, res), (13, e.pid), (4, res), (12, (descriptors e.info).length)] ++ descriptors e.info

def pmtBody (res pcrPid : Nat) (info : List (Nat × List UInt8)) (streams : List Es) : List UInt8 :=
  pack [(3, res), (13, pcrPid), (4, res), (12, (descriptors info).length)] ++ descriptors info ++ streams.flatMap (esBytes res)

/-- The payload of the packets a table is in: pointer field, end of the section before, the section, stuffing (or what else follows). -/
def carried (before sec after : List UInt8) : List UInt8 := pack [(8, before.length)] ++ before ++ sec ++ after

def DescOk (ds : List (Nat × List UInt8)) : Prop := (∀ d ∈ ds, d.1 < 256 ∧ d.2.length < 256) ∧ (descriptors ds).length < 4096

end Verif.Psi.Spec

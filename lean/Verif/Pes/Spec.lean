import Verif.Fields.Spec
/-
A PES packet (ISO/IEC 13818-1 2.4.3.6) as a receiver reads it, with time stamps and without the optional fields the program
never writes.
-/
namespace Verif.Pes.Spec
open Fields

structure Packet where
  streamId : Nat
  /-- PES_packet_length -/
  length : Nat
  pts : Option Nat
  dts : Option Nat
  /-- elementary stream bytes -/
  payload : List UInt8
deriving DecidableEq, Repr

/-- A 33 bit time stamp with the given four bit prefix and its marker bits. -/
def stamp (pre : Nat) (b : List UInt8) : Option Nat :=
  match read [4, 3, 1, 15, 1, 15, 1] b with
  | some [p, a, 1, m, 1, l, 1] => if p = pre then some (a * 2 ^ 30 + m * 2 ^ 15 + l) else none
  | _ => none

/-- Reads a PES packet; the payload starts after the header data. -/
def parse (b : List UInt8) : Option Packet :=
  match read [24, 8, 16, 2, 2, 1, 1, 1, 1, 2, 6, 8] b with
  | some [1, id, len, 2, 0, _, _, _, _, flags, 0, hdr] =>
    if b.length < 9 + hdr then none
    else
      match flags with
      | 0 => some ⟨id, len, none, none, b.drop (9 + hdr)⟩
      | 2 => if hdr < 5 then none else (stamp 2 (b.drop 9)).map fun p => ⟨id, len, some p, none, b.drop (9 + hdr)⟩
      | 3 =>
        if hdr < 10 then none
        else
          match stamp 3 (b.drop 9), stamp 1 (b.drop 14) with
          | some p, some d => some ⟨id, len, some p, some d, b.drop (9 + hdr)⟩
          | _, _ => none
      | _ => none
  | _ => none

/-- The length field describes the packet: 0 (unbounded, allowed for video in transport streams) or the number of bytes that
follow it. -/
def lengthRight (b : List UInt8) (p : Packet) : Prop := p.length = 0 ∨ p.length = b.length - 6

end Verif.Pes.Spec

import Verif.Fields.Spec
/-
ISO/IEC 13818-1: a transport packet (2.4.3.2, 2.4.3.4) as a receiver has to read it, whatever the adaptation field contains.
-/
namespace Verif.Demux.Spec
open Fields

structure Packet where
  start : Bool
  pid : Nat
  cc : Nat
  /-- random access indicator, when there is an adaptation field -/
  randomAccess : Option Nat
  payload : Option (List UInt8)
deriving DecidableEq, Repr

/-- Reads one intact packet of 188 bytes: the adaptation field has the length it says, the payload is everything behind it. -/
def packet (b : List UInt8) : Option Packet :=
  if b.length ≠ 188 then none
  else
    match read [8, 1, 1, 1, 13, 2, 1, 1, 4] b with
    | some [0x47, 0, start, _, pid, _, 0, 1, cc] => some ⟨start == 1, pid, cc, none, some (b.drop 4)⟩
    | some [0x47, 0, start, _, pid, _, 1, pay, cc] =>
      match read [8, 1, 1, 6] (b.drop 4) with
      | some [len, _, ra, _] =>
        if len > 183 ∨ (pay = 0 ∧ len ≠ 183) then none
        else some ⟨start == 1, pid, cc, some (if len = 0 then 0 else ra), if pay = 1 then some (b.drop (5 + len)) else none⟩
      | _ => none
    | _ => none

/-- The adaptation field, if there is one and it has flags, carries no private data and no extension, and the clock references and the splice
countdown announced by the flags fit into it. -/
def SimpleAF (b : List UInt8) : Prop :=
  ∀ h c len d r e pcr opcr spl priv ext, read [26, 1, 5, 8, 1, 1, 1, 1, 1, 1, 1, 1] b = some [h, 1, c, len, d, r, e, pcr, opcr, spl, priv, ext] →
    0 < len → priv = 0 ∧ ext = 0 ∧ 1 + 6 * pcr + 6 * opcr + spl ≤ len

/-- Packets one after another. -/
def IsStream (bytes : List UInt8) (ps : List Packet) : Prop :=
  ∃ raw : List (List UInt8), bytes = raw.flatten ∧ raw.map packet = ps.map some ∧ ∀ b ∈ raw, SimpleAF b

end Verif.Demux.Spec

import Verif.Demux.Spec
import Verif.Demux.PesSpec
/-
What a receiver has to get from the packets of one pid (ISO/IEC 13818-1 2.4.3.3): payload_unit_start_indicator marks the packets in which a PES packet begins.
-/
namespace Verif.Demux.Spec

/-- Packets of one pid cut at payload starts: what comes before the first start, and the units. -/
def group : List Packet → List UInt8 × List (List UInt8)
  | [] => ([], [])
  | p :: ps =>
    let g := group ps
    if p.start then ([], (p.payload.getD [] ++ g.1) :: g.2) else (p.payload.getD [] ++ g.1, g.2)

/-- The PES packets carried on a pid, when the file does not start in the middle of one. -/
def Carries (ps : List Packet) (pid : Nat) (us : List (List UInt8)) : Prop := group (ps.filter (fun p => p.pid == pid)) = ([], us)

/-- A PES packet with header, of unbounded length (0) or with the right one, of a stream. -/
def UnitOk (sid : Nat) (u : List UInt8) : Prop :=
  SimplePes u ∧ ∃ p, pes u = some p ∧ p.streamId = sid ∧ (p.length = 0 ∨ p.length + 6 = u.length)

def unbounded (u : List UInt8) : Bool := (pes u).any (·.length == 0)

/-- The PES packets whose end is known: all but a last one of unbounded length. -/
def closed (us : List (List UInt8)) : List (List UInt8) := if us.getLast?.any unbounded then us.dropLast else us

/-- The random access indicators of the PES packets on a pid: for each that of its first packet that has an adaptation field (and payload). -/
def flags : List Packet → Option Nat × List (Option Nat)
  | [] => (none, [])
  | p :: ps =>
    let g := flags ps
    let f := (if p.payload.getD [] = [] then none else p.randomAccess).or g.1
    if p.start then (none, f :: g.2) else (f, g.2)

end Verif.Demux.Spec

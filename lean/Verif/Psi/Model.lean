import Verif.Demux.Model
/-
Model of the program tables of the transport stream reader: `Pointer_Field`, `BaseSection`, `Program_Association_Section`, `Program_Map_Section`
(/repo/src/mg/media/mp4/mpeg2ts.fl 1076-1252), `psi`, `ProgramAssociationTable`, `ProgramMapTable` (/repo/src/mg/media/ts.h 236-527) and `CTSProcessor`
(/repo/src/mg/media/tsparse.h 552-760). The sizes of the arrays flavor makes for `[[i]]` fields are not modelled, nor the assertions (that is where the CRC is compared).
-/
namespace Verif.Psi
open Fields Demux

/-- The fields of `BaseSection` the program uses (mpeg2ts.fl 1089-1108); the rest is read over. Returns what is left. -/
def getBase (s : List Bool) : Option ((Nat × Nat) × List Bool) :=
  match takeBits [8, 1, 1, 2, 12, 16, 2, 5, 1, 8, 8] s with
  | some ([tableId, _, _, _, len, _, _, _, _, _, _], s) => some ((tableId, len), s)
  | _ => none

/-- The loop of `Program_Association_Section`, mpeg2ts.fl 1117-1132, from entry `i` with `n` to go: (program_number, program_map_PID). A program_map_PID that
is not read (program number 0) keeps what is in memory. -/
def patEntries (memory : Nat → Nat) : (i n : Nat) → List Bool → Option (List (Nat × Nat) × List Bool)
  | _, 0, s => some ([], s)
  | i, n + 1, s =>
    match takeBits [16, 3, 13] s with
    | some ([num, _, pid], s) =>
      (patEntries memory (i + 1) n s).map fun (l, s) => ((num, if num = 0 then memory i else pid) :: l, s)
    | _ => none

/-- `Program_Association_Section::get`, mpeg2ts.fl 1110-1136: `(section_length - (5 + 4)) / 4` in `unsigned int`. -/
def getPat (memory : Nat → Nat) (s : List Bool) : Option (List (Nat × Nat)) :=
  (getBase s).bind fun ((_, len), s) =>
  (patEntries memory 0 ((len + 2 ^ 32 - 9) % 2 ^ 32 / 4) s).bind fun (l, s) =>
  (takeBits [32] s).map fun _ => l

/-- A loop over `base_program_descriptor` (mpeg2ts.fl 274-286, 1178-1192, 1214-1230) until `count` is at least `len`. The fuel is the number of bits. -/
def getDescriptors : (fuel : Nat) → (len count : Nat) → List Bool → Option (List Bool)
  | 0, _, _, _ => none
  | f + 1, len, count, s =>
    if count < len then
      match takeBits [8, 8] s with
      | some ([_, n], s) => (skipIf true (8 * n) s).bind (getDescriptors f len (count + (n + 2)))
      | _ => none
    else some s

/-- The loop over the streams, mpeg2ts.fl 1194-1236, until `count` is at least `len`: (stream_type, elementary_PID). -/
def getStreams : (fuel : Nat) → (len count : Nat) → List Bool → Option (List (Nat × Nat) × List Bool)
  | 0, _, _, _ => none
  | f + 1, len, count, s =>
    if count < len then
      match takeBits [8, 3, 13, 4, 12] s with
      | some ([type, _, pid, _, n], s) =>
        (getDescriptors (s.length + 1) n 0 s).bind fun s =>
        (getStreams f len (count + (5 + n)) s).map fun (l, s) => ((type, pid) :: l, s)
      | _ => none
    else some ([], s)

/-- `Program_Map_Section::get`, mpeg2ts.fl 1139-1240: clock pid and streams. -/
def getPmt (s : List Bool) : Option (Nat × List (Nat × Nat)) :=
  (getBase s).bind fun ((_, len), s) =>
  match takeBits [3, 13, 4, 12] s with
  | some ([_, pcr, _, info], s) =>
    (getDescriptors (s.length + 1) info 0 s).bind fun s =>
    (getStreams (s.length + 1) ((len + 2 ^ 32 - 13 + 2 ^ 32 - info) % 2 ^ 32) 0 s).bind fun (l, s) =>
    (takeBits [32] s).map fun _ => (pcr, l)
  | _ => none

/-- State of a `psi`: the payload and the table, once there is one (`_operational`). -/
structure Psi (T : Type) where
  payload : List UInt8
  table : Option T
deriving DecidableEq, Repr

/-- After `Pointer_Field::get`, mpeg2ts.fl 1076-1087 (`skipbits` stops at the end). -/
def pointed (payload : List UInt8) : Option (List Bool) :=
  match takeBits [8] (bitsOf payload) with
  | some ([p], s) => some (s.drop (p * 8))
  | _ => none

/-- `psi::process`, ts.h 253-300; `none` is the EndOfData exception, which nobody catches. -/
def Psi.process {T : Type} (tableId : Nat) (get : List Bool → Option T) (s : Psi T) : Option (Psi T) :=
  (pointed s.payload).bind fun bits =>
  (getBase bits).bind fun ((id, len), _) =>
  if id = tableId then
    if len > s.payload.length then some s
    else (get bits).map fun t => { s with table := some t }
  else some s

/-- `tspacket::add` for a table, ts.h 127-184. -/
def Psi.add {T : Type} (tableId : Nat) (get : List Bool → Option T) (s : Psi T) (p : TPacket) : Option (Psi T) :=
  if p.err then some s
  else Psi.process tableId get { s with payload := (if p.start then [] else s.payload) ++ p.payload.getD [] }

/-- State of a `CTSProcessor`: the tables and receivers by pid. A receiver comes with its stream type. -/
structure Proc where
  pat : Psi (List (Nat × Nat))
  pmts : Nat → Option (Psi (Nat × List (Nat × Nat)))
  pes : Nat → Option (Nat × PS)

def Proc.init : Proc := { pat := ⟨[], none⟩, pmts := fun _ => none, pes := fun _ => none }

/-- `get_ts_pes`, tsparse.h 571-592; `sps` as in `Demux.h264Lookup`. -/
def kindOf (sps : List UInt8 → Bool) (type : Nat) : Kind := if type = 0x1b then .h264 sps else if type = 0x0f then .aac else .info

/-- What the memory of new objects holds. -/
structure Junk where
  pids : Nat → Nat
  hdr : Hdr

/-- `_pmts[pid] = new ProgramMapTable` for every program, tsparse.h 655-660. -/
def addMaps (l : List (Nat × Nat)) (pmts : Nat → Option (Psi (Nat × List (Nat × Nat)))) : Nat → Option (Psi (Nat × List (Nat × Nat))) :=
  l.foldl (fun m e q => if q = e.2 then some ⟨[], none⟩ else m q) pmts

/-- `_pes[pid] = ppes; _pes_type[pid] = type` for every stream, tsparse.h 688-715. -/
def addStreams (junk : Hdr) (l : List (Nat × Nat)) (pes : Nat → Option (Nat × PS)) : Nat → Option (Nat × PS) :=
  l.foldl (fun m e q => if q = e.2 then some (e.1, PS.init junk) else m q) pes

/-- After a packet of the program association table, tsparse.h 651-664. -/
def Proc.gotPat (s : Proc) (pat : Psi (List (Nat × Nat))) : Proc :=
  match pat.table with
  | some l => { s with pat := pat, pmts := addMaps l s.pmts }
  | none => { s with pat := pat }

/-- After a packet of the program map on a pid, tsparse.h 684-722. -/
def Proc.gotPmt (s : Proc) (junk : Hdr) (pid : Nat) (m : Psi (Nat × List (Nat × Nat))) : Proc :=
  match m.table with
  | some t => { s with pmts := fun q => if q = pid then some m else s.pmts q, pes := addStreams junk t.2 s.pes }
  | none => { s with pmts := fun q => if q = pid then some m else s.pmts q }

/-- `CTSProcessor::process`, tsparse.h 641-745; `none` is an exception. A packet with the error flag, whose pid is that of some packet before (or not set),
changes nothing whatever its pid is. -/
def Proc.step (sps : List UInt8 → Bool) (j : Junk) (s : Proc) (p : TPacket) : Option Proc :=
  if p.err then some s
  else if p.pid = 0 then
    if s.pat.table.isSome then some s
    else (Psi.add 0 (getPat j.pids) s.pat p).map s.gotPat
  else if s.pat.table.isNone then some s
  else
    match s.pmts p.pid with
    | some m =>
      if m.table.isSome then some s
      else (Psi.add 2 getPmt m p).map (s.gotPmt j.hdr p.pid)
    | none =>
      match s.pes p.pid with
      | none => some s
      | some (type, r) =>
        match r.step (kindOf sps type) p with
        | .error _ => none
        | .ok r => some { s with pes := fun q => if q = p.pid then some (type, r) else s.pes q }

/-- `process_packets` for the packets of a file (tsparse.h 830-890). -/
def Proc.run (sps : List UInt8 → Bool) (j : Junk) (s : Proc) : List TPacket → Option Proc
  | [] => some s
  | p :: ps => (s.step sps j p).bind fun s => s.run sps j ps

end Verif.Psi

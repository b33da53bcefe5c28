import Verif.RangeMap.Model
/-
Model of the MP4 sample tables: the writer `CMP4Stream` (/repo/src/mg/media/mp4write.h) and the readers
`CMP4SampleManager`, `CMP4TimeManager` (/repo/src/mg/media/mp4parse.h).

A table is the list of 32 bit words of the box body after the full box header (all table fields are written with
`write_uint` and read with `read_uint`). The entry count, written first as 0xFFFFFFFF and patched at the end
(`pin_position` / `pop_pin` / `un_pin`), is shown at its place with its final value.
-/
namespace Verif.Tables
open Verif.RangeMap (RMap)

/-- `static_cast<uint32_t>`. -/
def u32 (n : Nat) : Nat := n % 2 ^ 32

/-- unsigned 64 bit subtraction -/
def sub64 (a b : Nat) : Nat := (a + 2 ^ 64 - b) % 2 ^ 64

/-- unsigned 32 bit subtraction -/
def sub32 (a b : Nat) : Nat := (a + 2 ^ 32 - b) % 2 ^ 32

/-! ### Writer -/

/-- `chunk_des`, mp4write.h 199-204 (`continuity` is only used in an assertion). -/
structure ChunkDes where
  position : Nat
  samples : Nat
deriving DecidableEq, Repr

/-- `sample_des`, mp4write.h 205-210. -/
structure SampleDes where
  composition : Nat
  decoding : Nat
  size : Nat
deriving DecidableEq, Repr

/-- The fields of `CMP4Stream` (mp4write.h 212-245) used by the tables. `lastEnd = none` is the initial
`UINT64_MAX` of `_last_sample_end`; positions are below 2^64 - 1. -/
structure WStream where
  samples : List SampleDes := []
  chunks : List ChunkDes := []
  iframes : List Nat := []
  lastEnd : Option Nat := none
  chunkStart : Nat := 0
  inChunk : Nat := 0
  hasComposition : Bool := false
  hasSize : Bool := false
  flushed : Bool := true
  visual : Bool := true

/-- `register_chunk`, mp4write.h 300-310. -/
def registerChunk (s : WStream) : WStream :=
  { s with chunks := s.chunks ++ [⟨s.chunkStart, s.inChunk⟩], flushed := true }

/-- What the caller knows about a written sample (`media_sample`, size, position). -/
structure SampleIn where
  composition : Nat
  decoding : Nat
  sync : Bool
  size : Nat
  position : Nat

/-- Chunk bookkeeping at the start of `sample_written`, mp4write.h 796-818. -/
def chunkStep (s : WStream) (x : SampleIn) : WStream :=
  let s : WStream := match s.lastEnd with
    | none => { s with lastEnd := some x.position, chunkStart := x.position, inChunk := 0 }
    | some _ => s
  let s := if s.lastEnd = some x.position then { s with inChunk := s.inChunk + 1 }
    else { registerChunk s with inChunk := 1, chunkStart := x.position }
  { s with lastEnd := some (x.position + x.size) }

/-- `sample_written`, mp4write.h 791-903 (non debug build). -/
def sampleWritten (s : WStream) (x : SampleIn) : WStream :=
  let s := chunkStep s x
  let s := if s.hasComposition then s else { s with hasComposition := decide (x.composition ≠ x.decoding) }
  let s : WStream := match s.hasSize, s.samples.getLast? with
    | false, some l => { s with hasSize := decide (x.size ≠ l.size) }
    | _, _ => s
  let s := { s with samples := s.samples ++ [SampleDes.mk x.composition x.decoding x.size] }
  let s := if s.visual ∧ x.sync then { s with iframes := s.iframes ++ [s.samples.length - 1] } else s
  { s with flushed := false }

/-- `flush`, mp4write.h 1150-1154. -/
def flush (s : WStream) : WStream := if s.flushed then s else registerChunk s

/-- A stream to which samples were written one after another. -/
def writeAll (s : WStream) (xs : List SampleIn) : WStream := xs.foldl sampleWritten s

/-- Loop state of `write_stsc`: i, chunk_start, sample_count, entries written. -/
structure StscState where
  i : Nat := 0
  start : Nat := 0
  count : Nat := 0
  out : List (Nat × Nat) := []

/-- Loop body of `write_stsc`, mp4write.h 591-617. The third field of an entry, always 1, is added in
`writeStsc`. -/
def stscStep (s : StscState) (samples : Nat) : StscState :=
  let s := if s.i = 0 then { s with start := s.i + 1, count := u32 samples } else s
  let s := if samples ≠ s.count then
      { s with out := s.out ++ [(s.start, s.count)], count := u32 samples, start := s.i + 1 } else s
  { s with i := s.i + 1 }

/-- `write_stsc`, mp4write.h 558-656: the entries (first chunk, samples per chunk); `none` = exception. -/
def stscEntries (chunks : List ChunkDes) (allowEmpty : Bool) : Option (List (Nat × Nat)) :=
  match chunks.getLast? with
  | none => if allowEmpty then some [] else none
  | some l =>
    let s := (chunks.dropLast.map (·.samples)).foldl stscStep {}
    let out := if 1 < chunks.length then s.out ++ [(s.start, s.count)] else s.out
    some (out ++ [(chunks.length, u32 l.samples)])

/-- The words of the stsc box, mp4write.h 581-655: count, then (first chunk, samples, 1) triples. -/
def stscWords (es : List (Nat × Nat)) : List Nat := es.length :: es.flatMap (fun e => [e.1, e.2, 1])

/-- `write_stsz`, mp4write.h 657-685. -/
def stszWords (s : WStream) : List Nat :=
  0 :: u32 s.samples.length :: (if s.hasSize then s.samples.map (fun x => u32 x.size) else [])

/-- `write_stco` / `write_stco_body`, mp4write.h 723-751. -/
def stcoWords (s : WStream) (mdatOffset : Nat) : List Nat :=
  u32 s.chunks.length :: s.chunks.map (fun c => u32 (c.position + mdatOffset))

/-- `write_stss`, mp4write.h 754-773; `none` = no box. -/
def stssWords (s : WStream) : Option (List Nat) :=
  if s.iframes.length = 0 then none else some (u32 s.iframes.length :: s.iframes.map (fun i => u32 (i + 1)))

/-- Loop state of `write_stts`: i, last, sample_delta, current_count, entries. -/
structure SttsState where
  i : Nat := 0
  last : Nat := 0
  delta : Nat := 0
  count : Nat := 0
  out : List (Nat × Nat) := []

/-- Loop body of `write_stts`, mp4write.h 440-475. `ts` is `time_scale(hnano)` and `hn` is `get_hnano`, which
compute in floating point: arbitrary functions here. -/
def sttsStep (ts hn : Nat → Nat) (s : SttsState) (decoding : Nat) : SttsState :=
  let d := ts (sub64 decoding s.last)
  let s := { s with last := (s.last + hn d) % 2 ^ 64 }
  let s := if s.i = 1 then { s with delta := u32 d, count := 0 } else s
  let s := if d ≠ s.delta ∧ 0 < s.i then
      { s with out := s.out ++ [(u32 s.count, s.delta)], delta := u32 d, count := 0 } else s
  { s with count := s.count + 1, i := s.i + 1 }

/-- `write_stts`, mp4write.h 421-493: entries (sample count, delta). -/
def sttsEntries (ts hn : Nat → Nat) (allowEmpty : Bool) (decoding : List Nat) : List (Nat × Nat) :=
  let s := decoding.foldl (sttsStep ts hn) {}
  if decoding.length ≠ 0 ∨ allowEmpty = false then s.out ++ [(u32 (s.count + 1), s.delta)] else s.out

/-- Words of a table of pairs: count, then the pairs (mp4write.h 434, 454-462, 486-489). -/
def pairWords (es : List (Nat × Nat)) : List Nat := es.length :: es.flatMap (fun e => [e.1, e.2])

/-- Loop state of `write_ctts`. -/
structure CttsState where
  i : Nat := 0
  delta : Nat := 0
  count : Nat := 0
  out : List (Nat × Nat) := []

/-- Loop body of `write_ctts`, mp4write.h 527-541; `d` is the scaled difference. -/
def cttsStep (s : CttsState) (d : Nat) : CttsState :=
  let s := if s.i = 0 then { s with delta := u32 d } else s
  let s := if d ≠ s.delta then
      { s with out := s.out ++ [(u32 s.count, s.delta)], delta := u32 d, count := 0 } else s
  { s with count := s.count + 1, i := s.i + 1 }

/-- The scaled difference of one sample, mp4write.h 518-525. -/
def cttsDelta (ts : Nat → Nat) (offset : Nat) (x : SampleDes) : Nat :=
  ts ((sub64 x.composition x.decoding + (if offset = 0 then 0 else offset)) % 2 ^ 64)

/-- `write_ctts`, mp4write.h 495-556; `none` = no box. -/
def cttsEntries (ts : Nat → Nat) (offset : Nat) (s : WStream) : Option (List (Nat × Nat)) :=
  if s.hasComposition = false ∧ offset = 0 then none
  else
    let c := (s.samples.map (cttsDelta ts offset)).foldl cttsStep {}
    some (c.out ++ [(u32 c.count, c.delta)])

/-! ### Reader: CMP4SampleManager -/

/-- `Chunk`, mp4parse.h 623-628 (the sample description index is always copied along). -/
structure Chunk where
  spc : Nat
  sdi : Nat
  firstSample : Nat
  firstChunk : Nat
deriving DecidableEq, Repr

/-- Loop state of `parse_stsc`. -/
structure StscRd where
  i : Nat := 0
  prevFirst : Nat := 0
  prevSpc : Nat := 0
  samples : Nat := 0
  first : Nat := 0
  spc : Nat := 0
  sdi : Nat := 0
  map : RMap Chunk := []

/-- Loop body of `parse_stsc`, mp4parse.h 681-712. -/
def stscRdStep (s : StscRd) (e : Nat × Nat × Nat) : StscRd :=
  let chunk : Chunk := ⟨s.spc, s.sdi, s.samples, s.first⟩
  let s := { s with first := e.1, spc := e.2.1, sdi := e.2.2 }
  let s := if 0 < s.i then
      let samples := (s.samples + sub32 s.first s.prevFirst * s.prevSpc % 2 ^ 32) % 2 ^ 64
      { s with samples, map := if 0 < chunk.spc then Verif.RangeMap.add s.map samples chunk else s.map }
    else s
  { s with prevFirst := s.first, prevSpc := s.spc, i := s.i + 1 }

/-- Reads `n` groups of three words. -/
def triples : Nat → List Nat → Option (List (Nat × Nat × Nat))
  | 0, _ => some []
  | n + 1, a :: b :: c :: rest => (triples n rest).map ((a, b, c) :: ·)
  | _ + 1, _ => none

/-- After the loop of `parse_stsc`, mp4parse.h 715-724. -/
def stscFinish (s : StscRd) : RMap Chunk :=
  if 0 < s.spc then Verif.RangeMap.add s.map ((s.samples + s.spc) % 2 ^ 64) ⟨s.spc, s.sdi, s.samples, s.first⟩
  else s.map

/-- `parse_stsc`, mp4parse.h 662-727. `none` = the table ends too early. -/
def parseStsc (words : List Nat) : Option (RMap Chunk) :=
  match words with
  | [] => none
  | n :: rest =>
    (triples n rest).map (fun es => stscFinish (es.foldl stscRdStep {}))

/-- `get_chunk_number`, mp4parse.h 729-757: (chunk number, remains). `none` = access outside the map. -/
def getChunkNumber (m : RMap Chunk) (sample : Nat) : Option (Nat × Nat) :=
  match Verif.RangeMap.get m sample with
  | none => none
  | some (_, _, ch) =>
    let samples := sub64 sample ch.firstSample
    some (samples / ch.spc + ch.firstChunk, samples % ch.spc)

/-- `CMP4SampleManager` after parsing, mp4parse.h 611-630. -/
structure SampleManager where
  chunks : RMap Chunk
  sampleSize : Nat
  sampleCount : Nat
  sizes : List Nat
  offsets : List Nat

/-- `parse_stsz`, mp4parse.h 776-803: (sample_size, sample_count, sizes). `none` = the table ends too early. -/
def parseStsz (words : List Nat) : Option (Nat × Nat × List Nat) :=
  match words with
  | size :: count :: rest =>
    if size = 0 then (if count ≤ rest.length then some (size, count, rest.take count) else none)
    else some (size, count, [])
  | _ => none

/-- `parse_stco`, mp4parse.h 821-838. -/
def parseStco (words : List Nat) : Option (List Nat) :=
  match words with
  | [] => none
  | n :: rest => if n ≤ rest.length then some (rest.take n) else none

/-- `get_sample_size`, mp4parse.h 805-817; `none` = outside the array. -/
def SampleManager.size (m : SampleManager) (sample : Nat) : Option Nat :=
  if m.sampleSize = 0 then m.sizes[sample]? else some m.sampleSize

/-- Loop of `get_sample_offset`, mp4parse.h 868-871. -/
def SampleManager.walk (m : SampleManager) (sample remains : Nat) : (n i off : Nat) → Option Nat
  | 0, _, off => some off
  | n + 1, i, off =>
    match m.size (sample - remains + i) with
    | none => none
    | some z => m.walk sample remains n (i + 1) (off + z)

/-- `get_sample_offset` with `get_chunk_offset`, mp4parse.h 840-875. -/
def SampleManager.offset (m : SampleManager) (sample : Nat) : Option Nat :=
  match getChunkNumber m.chunks sample with
  | none => none
  | some (c, r) =>
    if c = 0 then none else
    match m.offsets[u32 c - 1]? with
    | none => none
    | some o => m.walk sample r r 0 o

/-! ### Reader: CMP4TimeManager -/

/-- `composition`, mp4parse.h 912-916. -/
structure Comp where
  decoding : Nat
  offset : Nat
  duration : Nat
deriving DecidableEq, Repr

/-- `decoding`, mp4parse.h 906-910. -/
structure Dec where
  samples : Nat
  duration : Nat
  delta : Nat
deriving DecidableEq, Repr

/-- State of `parse_stts`: `comp.decoding_time` = `total`, the vector, the map. -/
structure SttsRd where
  total : Nat := 0
  samples : Nat := 0
  comps : List Comp := []
  map : RMap Dec := []

/-- Inner loop of `parse_stts`, mp4parse.h 1055-1065. -/
def sttsInner (delta : Nat) : (n : Nat) → SttsRd → SttsRd
  | 0, s => s
  | n + 1, s => sttsInner delta n
      { s with comps := s.comps ++ [⟨s.total, 0, delta⟩], total := s.total + delta }

/-- Outer loop body of `parse_stts`, mp4parse.h 1050-1071. -/
def sttsRdStep (s : SttsRd) (e : Nat × Nat) : SttsRd :=
  let start := s.total
  let s := sttsInner e.2 e.1 s
  { s with map := Verif.RangeMap.add s.map s.total ⟨s.samples, start, e.2⟩, samples := s.samples + e.1 }

/-- Reads `n` groups of two words. -/
def pairs : Nat → List Nat → Option (List (Nat × Nat))
  | 0, _ => some []
  | n + 1, a :: b :: rest => (pairs n rest).map ((a, b) :: ·)
  | _ + 1, _ => none

/-- `parse_stts`, mp4parse.h 1033-1076. -/
def parseStts (words : List Nat) : Option SttsRd :=
  match words with
  | [] => none
  | n :: rest => (pairs n rest).map (fun es => es.foldl sttsRdStep {})

/-- `get_decoding_sample_number`, mp4parse.h 1199-1219. -/
def decodingSampleNumber (m : RMap Dec) (time : Nat) : Option Nat :=
  match Verif.RangeMap.get m time with
  | none => none
  | some (_, _, d) =>
    let ref := sub64 time d.duration
    some (d.samples + (if d.delta = 0 then 0 else ref / d.delta))

/-- Scan of `add_ordered`, mp4parse.h 974-977, with `idx` elements still to the left:
`none` = reads the element before the first. The stack's top is the head. -/
def orderedScan (time : Nat) (comp : List (Nat × Nat)) : (idx : Nat) → List (Nat × Nat) → Option (Nat × List (Nat × Nat))
  | 0, _ => none
  | idx + 1, stack =>
    match comp[idx]? with
    | none => none
    | some c => if time < c.1 then orderedScan time comp idx (c :: stack) else some (idx + 1, stack)

/-- Refill of `add_ordered`, mp4parse.h 987-996; `none` = `top()` of an empty stack. -/
def orderedFill (comp : List (Nat × Nat)) (idx : Nat) : List (Nat × Nat) → Option (List (Nat × Nat))
  | [] => none
  | x :: stack => if idx < comp.length then orderedFill (comp.set idx x) (idx + 1) stack else some (comp ++ [x])

/-- `add_ordered`, mp4parse.h 958-999: (composition time, sample number) pairs kept in composition order. -/
def addOrdered (comp : List (Nat × Nat)) (n : Nat × Nat) : Option (List (Nat × Nat)) :=
  if comp.length = 0 then some (comp ++ [n])
  else
    match orderedScan n.1 comp comp.length [] with
    | none => none
    | some (idx, stack) =>
      if stack.isEmpty then some (comp ++ [n]) else orderedFill (comp.set idx n) (idx + 1) stack

/-- Loop state of `parse_ctts`: next sample, the vector, the composition order. -/
structure CttsRd where
  n : Nat := 0
  comps : List Comp
  ordered : List (Nat × Nat) := []

/-- Inner loop of `parse_ctts`, mp4parse.h 1108-1137. -/
def cttsInner (offset : Nat) : (k : Nat) → CttsRd → Option CttsRd
  | 0, s => some s
  | k + 1, s =>
    match s.comps[s.n]? with
    | some c =>
      match addOrdered s.ordered (c.decoding + offset, s.n) with
      | none => none
      | some o => cttsInner offset k { n := s.n + 1, comps := s.comps.set s.n { c with offset }, ordered := o }
    | none => cttsInner offset k { s with n := s.n + 1 }

/-- Outer loop of `parse_ctts`, mp4parse.h 1097-1138. -/
def cttsOuter : List (Nat × Nat) → CttsRd → Option CttsRd
  | [], s => some s
  | (k, off) :: es, s =>
    match cttsInner off k s with
    | none => none
    | some s => cttsOuter es s

/-- `parse_ctts`, mp4parse.h 1079-1154. -/
def parseCtts (comps : List Comp) (words : List Nat) : Option CttsRd :=
  match words with
  | [] => none
  | n :: rest =>
    match pairs n rest with
    | none => none
    | some es => cttsOuter es { comps }

/-- `get_composition_time`, mp4parse.h 1273-1296; `none` = exception. -/
def compositionTime (comps : List Comp) (sample : Nat) : Option Nat :=
  (comps[sample]?).map (fun c => c.decoding + c.offset)

/-- `get_decoding_time`, mp4parse.h 1324-1333. -/
def decodingTime (comps : List Comp) (sample : Nat) : Option Nat := (comps[sample]?).map (·.decoding)

/-- `get_composition_sample_number`, mp4parse.h 1221-1269, with a ctts table; `std::lower_bound` is the first
element not below. -/
def compositionSampleNumber (ordered : List (Nat × Nat)) (time : Nat) : Nat :=
  let i := ordered.findIdx (fun c => decide (time ≤ c.1))
  match ordered[i]? with
  | none => 0
  | some c =>
    if i = 0 then 0
    else if time < c.1 then (match ordered[i - 1]? with | some p => p.2 | none => 0)
    else c.2

/-- Loop body of `parse_stss`, mp4parse.h 1167-1175: state (i, previous, map). -/
def stssRdStep (s : Nat × Nat × RMap Nat) (w : Nat) : Nat × Nat × RMap Nat :=
  let n := sub32 w 1
  (s.1 + 1, n, if 0 < s.1 then Verif.RangeMap.add s.2.2 (sub32 n 1) s.2.1 else s.2.2)

/-- `parse_stss`, mp4parse.h 1155-1180. -/
def parseStss (words : List Nat) : Option (RMap Nat) :=
  match words with
  | [] => none
  | n :: rest =>
    if n ≤ rest.length then
      let s := (rest.take n).foldl stssRdStep (0, 0, [])
      some (Verif.RangeMap.add s.2.2 ((s.2.1 + 1) % 2 ^ 32) s.2.1)
    else none

/-- `is_IFrame`, mp4parse.h 1346-1358; an absent stss table gives an empty map. -/
def isIFrame (m : RMap Nat) (sample : Nat) : Option Bool :=
  if m.length = 0 then some true
  else (Verif.RangeMap.get m sample).map (fun r => decide (r.2.2 = sample))

end Verif.Tables

/-
Model of the interleaving writer `MP4Write::add_sample` (/repo/src/mg/media/mp4write.h 2106-2182) with
`CMP4Stream::queue_sample` and `write_samples` (mp4write.h 956-999), and of what `MP4Mux::end`
(/repo/src/mg/media/mp4mux.h 364-420) puts into the file.

The sample queue (`grow_queue`) is a list here; that it is a FIFO is property C33. The storage behind `CMP4W` is an
append only byte list whose length is the position (property C52).
-/
namespace Verif.Interleave

/-- A queued `media_sample` (mp4write.h 964-965) with its body. Times are `int64_t`. -/
structure QSample where
  composition : Int
  decoding : Int
  sync : Bool
  body : List UInt8
deriving DecidableEq, Repr

/-- `uint64_t` to `int64_t` conversion of the low 64 bits. -/
def toI64 (n : Nat) : Int := if n % 2 ^ 64 < 2 ^ 63 then (n % 2 ^ 64 : Nat) else (n % 2 ^ 64 : Nat) - 2 ^ 64

/-- `int64_t` to `uint64_t` conversion. -/
def toU64 (i : Int) : Nat := (i % 2 ^ 64).toNat

/-- `NOWRITE`, mp4write.h 47. -/
def NOWRITE : Nat := 2 ^ 64 - 1

/-- The parts of `CMP4Stream` used by interleaving: `_sample_queue`, the samples passed to `sample_written` with their
positions, `_sample_max` (mp4write.h 890-891, initially 0), `IsLTC()`. -/
structure IStream where
  queue : List QSample := []
  written : List (QSample × Nat) := []
  sampleMax : Nat := 0
  ltc : Bool := false
deriving DecidableEq, Repr

/-- The part of `sample_written` seen here (mp4write.h 791-906): the sample is recorded; the result is its
composition time. -/
def sampleWritten (s : IStream) (q : QSample) (position : Nat) : IStream :=
  { s with written := s.written ++ [(q, position)],
           sampleMax := if s.sampleMax < toU64 q.composition then toU64 q.composition else s.sampleMax }

/-- The time that decides whether a queued sample is written, mp4write.h 973-979. -/
def keyOf (useComp : Bool) (q : QSample) : Int := if useComp then q.composition else q.decoding

/-- The loop of `write_samples`, mp4write.h 969-991, over the queue; returns the stream, the media data and
`last_time`. -/
def writeLoop (max : Nat) (useComp : Bool) : (queue : List QSample) → IStream → List UInt8 → Nat → IStream × List UInt8 × Nat
  | [], s, mdat, last => ({ s with queue := [] }, mdat, last)
  | q :: qs, s, mdat, last =>
    if keyOf useComp q ≤ toI64 max then
      writeLoop max useComp qs (sampleWritten s q mdat.length) (mdat ++ q.body) (toU64 q.composition)
    else ({ s with queue := q :: qs }, mdat, last)

/-- `write_samples`, mp4write.h 968-999: (stream, media data, last_time, is_over). -/
def writeSamples (max : Nat) (useComp : Bool) (s : IStream) (mdat : List UInt8) : IStream × List UInt8 × Nat × Bool :=
  let r := writeLoop max useComp s.queue s mdat NOWRITE
  (r.1, r.2.1, r.2.2, decide (r.1.queue ≠ [] ∧ r.2.2 = NOWRITE))

/-- `MP4Write` (mp4write.h 1602-1618) and the media data written through `CMP4W`. -/
structure Mux where
  streams : List IStream
  mdat : List UInt8 := []
  maxTime : Nat
  maxUsed : Nat := 0
  distance : Nat
  useComp : Bool := true
deriving Repr

/-- Constructor, mp4write.h 1737-1750. -/
def Mux.new (streams : List IStream) (distance : Nat) (useComp : Bool) : Mux :=
  { streams, maxTime := 2 ^ 64 - 1 - distance, distance, useComp }

/-- `min_stream`, mp4write.h 1645-1664. -/
def Mux.minStream (m : Mux) : Nat :=
  m.streams.foldl (fun mn s => if s.ltc = false ∧ s.written ≠ [] ∧ s.sampleMax < mn then s.sampleMax else mn)
    (2 ^ 64 - 1 - m.distance)

/-- Loop body over the streams, mp4write.h 2142-2155: state (mux, w, all_over). -/
def streamStep (st : Mux × Nat × Bool) (i : Nat) : Mux × Nat × Bool :=
  let (m, w, allOver) := st
  match m.streams[i]? with
  | none => st
  | some s =>
    let (s, mdat, result, over) := writeSamples ((m.maxUsed + m.distance) % 2 ^ 64) m.useComp s m.mdat
    let m := { m with streams := m.streams.set i s, mdat }
    if result < NOWRITE then
      let t := m.minStream
      ({ m with maxTime := t, maxUsed := t }, result, allOver)
    else (m, w, allOver && over)

/-- One iteration of the outer loop without the retry, mp4write.h 2137-2155. -/
def round (m : Mux) : Mux × Nat × Bool := (List.range m.streams.length).foldl streamStep (m, NOWRITE, true)

/-- The outer loop, mp4write.h 2127-2180. `fuel` bounds the iterations (`none` = not finished); C60 shows that it
finishes. -/
def loop : (fuel : Nat) → Mux → Option Mux
  | 0, _ => none
  | fuel + 1, m =>
    let (m, w, allOver) := round m
    if w = NOWRITE then
      if allOver then loop fuel { m with maxUsed := (m.maxUsed + 100000) % 2 ^ 64 } else some m
    else loop fuel m

/-- `queue_sample`, mp4write.h 956-966. -/
def Mux.queueSample (m : Mux) (i : Nat) (q : QSample) : Mux :=
  { m with streams := m.streams.modify i (fun s => { s with queue := s.queue ++ [q] }) }

/-- `add_sample`, mp4write.h 2106-2182. -/
def addSample (fuel : Nat) (m : Mux) (i : Nat) (q : QSample) : Option Mux :=
  let m := m.queueSample i q
  loop fuel { m with maxUsed := m.maxTime }

/-- A history of `add_sample` calls. -/
def addAll (fuel : Nat) (m : Mux) : List (Nat × QSample) → Option Mux
  | [] => some m
  | (i, q) :: h => match addSample fuel m i q with
    | none => none
    | some m => addAll fuel m h

/-- What `MP4Mux::end` (mp4mux.h 364-420) makes the media data of the file from: the body file as it is (`copy_stream`,
mp4mux.h 160); the tables list the samples passed to `sample_written`. The queues are not looked at. -/
def endFile (m : Mux) : List UInt8 × List (List (QSample × Nat)) := (m.mdat, m.streams.map (·.written))

end Verif.Interleave

import Verif.Ts.Model
import Verif.Pes.Model
/-
Model of the transport stream muxer, /repo/src/mg/media/tsmux.h 38-617 and 632-757 (`TSMux`, `TSMuxH264Stream`,
`TSMuxAACStream`, `TSEmptyStream`, `HLSMux`). The memory streams `_header`, `_body`, `_pes` behave as files (properties C51,
C52), so that they appear here as the bytes written into them; what lies behind the bytes in memory is `beyond`.
-/
namespace Verif.TsMux
open Fields Ts Pes

/-- Codes of `mpeg4audio_sample_rates`, aac.fl 57-71, and of `mpeg4audio_channels`, aac.fl 73-82; the position in the list is the code.
What flavor generates for a value that is not in the map is not modelled (0 here). -/
def sampleRates : List Nat := [96000, 88200, 64000, 48000, 44100, 32000, 24000, 22050, 16000, 12000, 11025, 8000, 7350]
def channelCodes : List Nat := [0, 1, 2, 3, 4, 5, 6, 8]

/-- Fields of the `ADTS` object of an audio stream. -/
structure Adts where
  objectType : Nat
  sampleRate : Nat
  channels : Nat
deriving DecidableEq, Repr

/-- `ADTS::put` (aac.fl 151-208) after `set_body_length(size)`, with mpeg_version 0 and buffer_fullnes 0x7FF (tsmux.h 274-286). -/
def adtsHeader (a : Adts) (size : Nat) : List UInt8 :=
  pack [(12, 0xFFF), (1, 0), (2, 0), (1, 1), (2, (a.objectType + 2 ^ 32 - 1) % 2 ^ 32), (4, sampleRates.idxOf a.sampleRate),
    (1, 0), (3, channelCodes.idxOf a.channels), (1, 0), (1, 0), (1, 0), (1, 0), (13, size + 7), (11, 0x7FF), (2, 0)]

/-- A stream of the muxer: sps and pps of a video stream, ADTS parameters and `_pcr_output` of an audio stream, or an LTC stream. -/
inductive Stream where
  | h264 (sps pps : List UInt8)
  | aac (adts : Adts) (pcr : Bool)
  | empty

/-- `00 00 00 01` -/
def startCode : List UInt8 := [0, 0, 0, 1]

/-- `write_nal_9`, tsmux.h 88-100. -/
def nal9 : List UInt8 := startCode ++ [0x09, 0xf0]

/-- `nal_size` read from the first four bytes, tsmux.h 139-146 (`_nal_lengthSize` is 4). -/
def nalSize (l : List UInt8) : Nat := ((l.take 4).foldl (fun n b => (n * 256 + b.toNat) % 2 ^ 32) 0)

/-- The loop of `add_sample` over `process_nal`, tsmux.h 131-162, 182-185. A size that points behind the sample makes the program read
foreign memory; that is not modelled (only what is inside the sample is taken). -/
def nalLoop (l : List UInt8) : List UInt8 :=
  if _h : l = [] then [] else startCode ++ (l.drop 4).take (nalSize l) ++ nalLoop (l.drop (4 + nalSize l))
termination_by l.length
decreasing_by
  have := List.length_pos_iff.mpr _h
  simp only [List.length_drop]; omega

/-- The elementary stream bytes of a video sample: `_header` or `_body`, tsmux.h 102-129, 164-191. -/
def videoES (sps pps : List UInt8) (body : List UInt8) (iframe : Bool) : List UInt8 :=
  (if iframe then nal9 ++ startCode ++ sps ++ startCode ++ pps else nal9) ++ nalLoop body

/-- A sample given to `add_sample`. -/
structure Sample where
  stream : Nat
  body : List UInt8
  iframe : Bool
  ct : Nat
  dt : Nat

/-- The PES packet a stream makes of a sample and the clock reference passed to `output_ts`; `none` for an LTC stream.
tsmux.h 164-232 and 290-349 (`_pes_frames` is 1, so that every audio sample makes a packet). -/
def pesOf (st : Stream) (body : List UInt8) (iframe : Bool) (ct dt : Nat) : Option (List UInt8 × Option Nat) :=
  match st with
  | .h264 sps pps =>
    let es := videoES sps pps body iframe
    some (writePesHeader 224 (some ct) (some dt) none es.length ++ es, if iframe then some dt else none)
  | .aac a pcr =>
    let es := adtsHeader a body.length ++ body
    some (writePesHeader 192 (some ct) (if pcr then some dt else none) none es.length ++ es, if pcr then some dt else none)
  | .empty => none

/-- `TSMux`, tsmux.h 357-406. -/
structure State where
  streams : List Stream
  ts : Ts.State
  repeatPid : Option Nat
  onlyTable : Bool
  first : Bool
  presentationOffset : Nat
  decodingOffset : Nat

/-- A new `TSMux`, tsmux.h 395-406. -/
def init (types pids : Nat → Nat) (j1 j2 j3 : Nat) (onlyTable : Bool) : State :=
  { streams := [], ts := Ts.init types pids j1 j2 j3, repeatPid := none, onlyTable := onlyTable, first := true,
    presentationOffset := 2000000, decodingOffset := 0 }

/-- `BASEPID` -/
def basePid : Nat := 0x100

/-- `add_visual_stream`, tsmux.h 408-439. -/
def addVisual (s : State) (sps pps : List UInt8) : State :=
  let idx := s.streams.length
  let ts := addPam s.ts (basePid + idx) 0x1b idx
  { s with
    streams := s.streams ++ [.h264 sps pps]
    ts := if s.repeatPid = none then setPcrPid ts (basePid + idx) else ts
    repeatPid := if s.repeatPid = none then some idx else s.repeatPid }

/-- `add_audio_stream`, tsmux.h 442-466. -/
def addAudio (s : State) (a : Adts) : State :=
  let idx := s.streams.length
  { s with streams := s.streams ++ [.aac a false], ts := addPam s.ts (basePid + idx) 0x0f idx }

/-- `add_extension_ltc_stream`, tsmux.h 468-480. -/
def addLtc (s : State) : State := { s with streams := s.streams ++ [.empty] }

/-- `set_stream_pcr`, tsmux.h 609-615; `set_pcr` of a stream: tsmux.h 59, 351 (only an audio stream remembers it). -/
def setStreamPcr (s : State) (i : Nat) : State :=
  { s with
    streams := s.streams.modify i (fun | .aac a _ => .aac a true | st => st)
    ts := setPcrPid s.ts (basePid + i) }

/-- Memory the program may see or leave uninitialised during a call. -/
structure Env where
  beyond : Nat → UInt8
  junk : Clock
  addr1 : Nat
  addr2 : Nat

/-- `add_sample`, tsmux.h 536-574: tables first when needed, then the sample. -/
def addSample (e : Env) (s : State) (x : Sample) : State :=
  let ts := if s.first || (!s.onlyTable && decide (s.repeatPid = some x.stream) && x.iframe) then
      outputTables s.ts e.addr1 e.addr2 e.beyond e.junk else s.ts
  let ts := match s.streams[x.stream]? with
    | none => ts
    | some st =>
      match pesOf st x.body x.iframe ((x.ct + s.presentationOffset) % 2 ^ 64) ((x.dt + s.decodingOffset) % 2 ^ 64) with
      | none => ts
      | some (pes, pcr) => outputTs ts (basePid + x.stream) pes e.beyond x.iframe pcr e.junk
  { s with ts := ts, first := false }

/-- `stuff_streams`, tsmux.h 493-497. -/
def stuffStreams (e : Env) (s : State) : State :=
  { s with ts := (List.range s.streams.length).foldl (fun ts i => fillPid ts (basePid + i) e.junk) s.ts }

/-- `HLSMux`: the entry of `_composition_start_time[0]` (one entry serves all streams), tsmux.h 632-757. -/
structure Hls where
  base : Nat
  offset : Nat
deriving DecidableEq, Repr

/-- `set_composition_start_time`, tsmux.h 735-745. -/
def Hls.start (base : Nat) : Hls := { base := base, offset := 2 ^ 63 - 1 }

/-- `HLSMux::add_sample`, tsmux.h 669-733: the times handed on, and the entry afterwards. `uint64_t` arithmetic. -/
def Hls.sample (h : Hls) (ct dt : Nat) : Hls × Nat × Nat :=
  let decodingOffset := (ct + (2 ^ 64 - dt)) % 2 ^ 64
  let h := if h.offset = 2 ^ 63 - 1 then { h with offset := (h.base + (2 ^ 64 - ct)) % 2 ^ 64 } else h
  (h, (ct + h.offset) % 2 ^ 64, (ct + h.offset + (2 ^ 64 - decodingOffset)) % 2 ^ 64)

end Verif.TsMux

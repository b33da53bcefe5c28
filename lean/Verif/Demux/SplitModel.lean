import Verif.Fields.Spec
/-
Model of how the transport stream reader cuts elementary stream data into units: NAL units of an H.264 PES payload and AAC frames of an
ADTS PES payload (/repo/src/mg/media/tsparse.h), and of what `ts2mp4` makes of the units (/repo/src/mg/media/tsinfo.cpp 190-333).
The loops read a `fixed_memory_bitstream` at byte positions only; `nextbits(8k)` there is the big endian number of the next k bytes
(properties C05, C06), `has_bits(8k)` says that k bytes are left, `skipbits` stops at the end. So the stream appears as the list of the
bytes that are left.
-/
namespace Verif.Demux
open Fields

/-- `while(has_bits(24) && nextbits(24) != 0x000001) skipbits(8)`, tsparse.h 469-475. -/
def skipToCode : List UInt8 → List UInt8
  | a :: b :: c :: r => if a = 0 ∧ b = 0 ∧ c = 1 then a :: b :: c :: r else skipToCode (b :: c :: r)
  | l => l

/-- Bytes up to the next start code and what is left, tsparse.h 503-524: as long as four bytes are left and they begin neither with
`000001` nor with `00000001` a byte is taken; with fewer than four bytes left everything is taken (`flush`). -/
def takeNal : List UInt8 → List UInt8 × List UInt8
  | a :: b :: c :: d :: r =>
    if (a = 0 ∧ b = 0 ∧ c = 1) ∨ (a = 0 ∧ b = 0 ∧ c = 0 ∧ d = 1) then ([], a :: b :: c :: d :: r)
    else (a :: (takeNal (b :: c :: d :: r)).1, (takeNal (b :: c :: d :: r)).2)
  | l => (l, [])

/-- The outer loop of `ReceiveElementaryStreamData`, tsparse.h 467-533: the payloads given to `NalPayload`, and whether the loop ended
normally. `false` stands for the EndOfData exception of `nextbits(8)` (line 492) when nothing follows the skipped 24 bits. The fuel
is the number of bytes: every round takes at least one. -/
def nalRounds : Nat → List UInt8 → List (List UInt8) × Bool
  | _, [] => ([], true)
  | 0, _ :: _ => ([], true)
  | n + 1, a :: l =>
    match (skipToCode (a :: l)).drop 3 with
    | [] => ([], false)
    | b :: r =>
      let t := takeNal (b :: r)
      let u := nalRounds n t.2
      (t.1 :: u.1, u.2)

/-- `TSProgramElementaryStreamAnalyzeH264::ReceiveElementaryStreamData` on the bytes of the payload from its position, tsparse.h 449-546. -/
def splitNals (l : List UInt8) : List (List UInt8) × Bool := nalRounds l.length l

/-- `nal_type`, tsparse.h 492-493: `nextbits(8) & 0x1F` (a payload is never empty). -/
def nalType (n : List UInt8) : Nat := (n.headD 0).toNat % 32

/-- State of `TS2MP4H264`, tsinfo.cpp 190-198, 275-281: parameter sets kept, and whether the stream was created (`_stream_idx` ≥ 0). -/
structure Video where
  sps : List UInt8
  pps : List UInt8
  created : Option (List UInt8 × List UInt8)
  sample : List UInt8
deriving DecidableEq, Repr

/-- tsinfo.cpp 275-281 -/
def Video.init : Video := { sps := [], pps := [], created := none, sample := [] }

/-- `TS2MP4H264::NalPayload`, tsinfo.cpp 219-272: delimiters (9) are dropped, the first sequence (7) and picture (8) parameter set are kept and
create the stream, later ones are dropped, everything else is added to the sample with a four byte length. -/
def Video.nal (v : Video) (n : List UInt8) : Video :=
  if nalType n = 9 then v
  else if nalType n = 7 then (if v.sps.length = 0 then { v with sps := v.sps ++ n } else v)
  else if nalType n = 8 then
    (if v.pps.length = 0 then { v with pps := v.pps ++ n, created := some (v.sps, v.pps ++ n) } else v)
  else { v with sample := v.sample ++ pack [(32, n.length)] ++ n }

/-- `NalPayload` for every unit, then `PacketEnd` (tsparse.h 536, tsinfo.cpp 201-217): the sample handed to `add_sample`, and the state with the
sample buffer emptied. `none` when the loop was left by an exception. -/
def Video.receive (v : Video) (l : List UInt8) : Video × Option (List UInt8) :=
  let r := splitNals l
  let v := r.1.foldl Video.nal v
  if r.2 then ({ v with sample := [] }, some v.sample) else (v, none)

/-- The fields of the `ADTS` header the program uses (aac.fl 151-175). -/
structure Adts where
  missingProtection : Nat
  objectMinus1 : Nat
  frequency : Nat
  channels : Nat
  frameLength : Nat
deriving DecidableEq, Repr

/-- `ADTS::get`, aac.fl 151-175: 56 bits, and 16 more (CRC) unless missing_protection; returns what is left. What the generated code does
with constants that do not match and with codes outside its maps is not modelled: the codes are kept as numbers. -/
def adtsGet (l : List UInt8) : Option (Adts × List UInt8) :=
  match read [12, 1, 2, 1, 2, 4, 1, 3, 1, 1, 1, 1, 13, 11, 2] l with
  | some [_, _, _, mp, obj, freq, _, chan, _, _, _, _, len, _, _] =>
    some (⟨mp, obj, freq, chan, len⟩, if mp = 1 then l.drop 7 else l.drop 9)
  | _ => none

/-- `get_body_length`, aac.fl 190-193 (`unsigned int`). -/
def Adts.bodyLength (a : Adts) : Nat := (a.frameLength + 2 ^ 32 - (if a.missingProtection = 1 then 7 else 9)) % 2 ^ 32

/-- `while(has_bits(12) && nextbits(12) != 0xFFF) skipbits(8)`, tsparse.h 267-273. -/
def skipToSync : List UInt8 → List UInt8
  | a :: b :: r => if a = 0xFF ∧ b.toNat / 16 = 15 then a :: b :: r else skipToSync (b :: r)
  | l => l

/-- The loop that copies the body, tsparse.h 285-296: (`full_body`, the bytes copied, the bytes left). -/
def copyBody (n : Nat) : (i : Nat) → (full : Bool) → List UInt8 → Bool × List UInt8 × List UInt8
  | i, full, [] => if i < n then (decide (i + 1 = n), [], []) else (full, [], [])
  | i, full, b :: r =>
    if i < n then
      if r = [] then (decide (i + 1 = n), [b], [])
      else
        let t := copyBody n (i + 1) (decide (i + 1 = n)) r
        (t.1, b :: t.2.1, t.2.2)
    else (full, [], b :: r)

/-- The outer loop of the AAC `ReceiveElementaryStreamData`, tsparse.h 263-383: the frames given to `AACPayload`, and whether it ended with
the message MISMATCHED-ADTS-SIZE-VS-PES-SIZE. The fuel is the number of bytes. -/
def adtsRounds : Nat → List UInt8 → List (Adts × List UInt8) × Bool
  | _, [] => ([], false)
  | 0, _ :: _ => ([], false)
  | n + 1, a :: l =>
    let s := skipToSync (a :: l)
    if 9 ≤ s.length then
      match adtsGet s with
      | some (h, r) =>
        let t := copyBody h.bodyLength 0 false r
        if t.1 then
          let u := adtsRounds n t.2.2
          ((h, t.2.1) :: u.1, u.2)
        else ([], true)
      | none => ([], true)
    else ([], true)

/-- `TSProgramElementaryStreamAnalyzeAAC::ReceiveElementaryStreamData` on the bytes of the payload from its position, tsparse.h 246-392. -/
def splitAdts (l : List UInt8) : List (Adts × List UInt8) × Bool := adtsRounds l.length l

/-- The times `TS2MP4AAC::AACPayload` (tsinfo.cpp 291-323) gives to frame `i` of a PES packet and the duration: `10000000ULL / frequency * 1024`. -/
def frameTime (rate : Nat) : Nat := 10000000 / rate * 1024
def frameStart (rate pts i : Nat) : Nat := (pts + frameTime rate * i) % 2 ^ 64

end Verif.Demux

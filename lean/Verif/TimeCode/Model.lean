import Verif.Reader.Model
/-
Model of the time codes of /repo/src/mg/media: the arithmetic of `TC` and the decoder of linear time code words
`CTimeCode` with `push_biphase` (WaveParser.h), the thinning of a time code stream while it is written
(`CMP4LTCStream::queue_sample`, mp4write.h) and the interpolation when it is read
(`MP4Reader::get_interpolated_time_code`, mp4parse.h).

Not modelled: the finding of the half bit cells in sampled sound (`channelpulse`, WaveParser.h 894-985, compiled on
Windows only), texts (`GetTCHAR`). `DWORD` is `uint32_t` (core.h 56).
-/
namespace Verif.TimeCode
open Verif.Reader

/-- 32 bit unsigned value -/
def u32 (n : Nat) : Nat := n % 2 ^ 32

/-- `TC`, WaveParser.h 243-280. -/
structure TC where
  frames : Nat := 0
  seconds : Nat := 0
  minutes : Nat := 0
  hours : Nat := 0
  nFrames : Nat := 25
deriving DecidableEq, Repr

/-- `TC(uint32_t)`, WaveParser.h 282-291: binary coded digits; the tens are not reduced, the units modulo 10. -/
def ofWord (w : BitVec 32) : TC where
  frames := ((0x000000F0#32 &&& w) >>> 4).toNat % 16 * 10 + (0x0000000F#32 &&& w).toNat % 10
  seconds := ((0x0000F000#32 &&& w) >>> 12).toNat % 16 * 10 + ((0x00000F00#32 &&& w) >>> 8).toNat % 10
  minutes := ((0x00F00000#32 &&& w) >>> 20).toNat % 16 * 10 + ((0x000F0000#32 &&& w) >>> 16).toNat % 10
  hours := ((0xF0000000#32 &&& w) >>> 28).toNat % 16 * 10 + ((0x0F000000#32 &&& w) >>> 24).toNat % 10

/-- `TC(int64_t)`, WaveParser.h 293-299, for times that are not negative. -/
def ofTime (time : Nat) : TC where
  frames := u32 (time / 10000 % 1000) / (1000 / 25)
  seconds := u32 (time / (10000 * 1000)) % 60
  minutes := u32 (time / (10000 * 1000 * 60)) % 60
  hours := u32 (time / (10000 * 1000 * 60)) / 60

/-- `isValid`, WaveParser.h 310-317. -/
def TC.valid (t : TC) : Bool :=
  decide (t.nFrames > t.frames) && decide (60 > t.seconds) && decide (60 > t.minutes) && decide (24 > t.hours)

/-- `operator+`, WaveParser.h 319-336; the result is a new `TC`, with 25 frames. -/
def add (a b : TC) : TC :=
  let fr := u32 (a.frames + b.frames) / a.nFrames
  let sr := u32 (a.seconds + b.seconds + fr) / 60
  let mr := u32 (a.minutes + b.minutes + sr) / 60
  { frames := u32 (a.frames + b.frames) % a.nFrames
    seconds := u32 (a.seconds + b.seconds + fr) % 60
    minutes := u32 (a.minutes + b.minutes + sr) % 60
    hours := u32 (a.hours + b.hours + mr) % 24 }

/-- An unsigned 32 bit value put into a `long` of `bits` bits: 32 on Windows, 64 on Linux. -/
def toLong (bits : Nat) (n : Nat) : Int :=
  if bits = 32 ∧ n ≥ 2 ^ 31 then (n : Int) - 2 ^ 32 else n

/-- One field of `operator-`, WaveParser.h 342-377: the difference as `long`, the borrow and the new field. `div` is the
number the borrow is divided by (25 for frames, whatever the rate is, line 348), `base` the base of the field. -/
def subField (bits a b borrow div base : Nat) : Nat × Nat :=
  let l := toLong bits (u32 (a + 2 * 2 ^ 32 - b - borrow))
  if l < 0 then
    let k := (-l).toNat
    (u32 (base + 2 ^ 32 - k % base), u32 (k / div + 1))
  else (u32 l.toNat, 0)

/-- `operator-`, WaveParser.h 338-391. -/
def sub (bits : Nat) (a b : TC) : TC :=
  let f := subField bits a.frames b.frames 0 25 a.nFrames
  let s := subField bits a.seconds b.seconds f.2 60 60
  let m := subField bits a.minutes b.minutes s.2 60 60
  let l := toLong bits (u32 (a.hours + 2 * 2 ^ 32 - b.hours - m.2))
  { frames := f.1, seconds := s.1, minutes := m.1
    hours := if l < 0 then (if -23 < l then 0 else u32 (24 + l).toNat) else u32 l.toNat }

/-- `operator++`, WaveParser.h 393-400: `operator=` does not copy the number of frames (301-308). -/
def inc (a : TC) : TC := { add a { frames := 1 } with nFrames := a.nFrames }

/-- `operator uint32_t`, WaveParser.h 402-413. -/
def toWord (t : TC) : BitVec 32 :=
  (BitVec.ofNat 32 (t.frames / 10) <<< 4 ||| BitVec.ofNat 32 (t.frames % 10)) |||
  (BitVec.ofNat 32 (t.seconds / 10) <<< 12 ||| BitVec.ofNat 32 (t.seconds % 10) <<< 8) |||
  (BitVec.ofNat 32 (t.minutes / 10) <<< 20 ||| BitVec.ofNat 32 (t.minutes % 10) <<< 16) |||
  (BitVec.ofNat 32 (t.hours / 10) <<< 28 ||| BitVec.ofNat 32 (t.hours % 10) <<< 24)

/-- `SumHnano`, WaveParser.h 443-455, for times that are not negative. -/
def sumHnano (a : TC) (time : Nat) : TC :=
  add a { hours := u32 (time / (10000 * 1000 * 60) / 60), minutes := u32 (time / (10000 * 1000 * 60) % 60)
          seconds := u32 (time / (10000 * 1000) % 60), frames := u32 (time / 10000 % 1000 / (1000 / 25)) }

/-! ### writing -/

/-- 2^64 arithmetic -/
def u64 (n : Nat) : Nat := n % 2 ^ 64

/-- `CMP4LTCStream`, mp4write.h 1488-1492, 1522-1526. -/
structure Ltc where
  rate : Nat := 400000
  base : TC := {}
  next : Nat := 0
deriving Repr

/-- `CMP4LTCStream::queue_sample`, mp4write.h 1532-1580: `true` when the sample is handed on. `_base == wtc` compares
the words (conversion of `_base`). -/
def queueSample (s : Ltc) (time : Nat) (code : BitVec 32) : Ltc × Bool :=
  if s.next > s.rate ∧ s.next - s.rate ≥ time then ({ s with next := u64 (time + s.rate) }, false)
  else if s.next / 10000 = time / 10000 ∧ toWord s.base = code then
    ({ s with base := inc s.base, next := u64 (time + s.rate) }, false)
  else ({ s with base := inc { ofWord code with nFrames := s.base.nFrames }, next := u64 (time + s.rate) }, true)

/-- All the time codes given to a stream: those that are written to the file. -/
def queueAll : Ltc → List (Nat × BitVec 32) → List (Nat × BitVec 32)
  | _, [] => []
  | s, x :: xs =>
    let r := queueSample s x.1 x.2
    if r.2 then x :: queueAll r.1 xs else queueAll r.1 xs

/-! ### reading -/

/-- `wmt_timecode`, mp4/ltcextension.fl 34-40, without the fields `wRange` and `dwAmFlags`. -/
structure Stored where
  code : BitVec 32
  user : BitVec 32
deriving DecidableEq, Repr

/-- Constants of mp4/ltcextension.fl 23-30. -/
def flagRead : BitVec 32 := 0x664#32
/-- mp4/ltcextension.fl 24 -/
def flagInterpolated : BitVec 32 := 0x665#32
/-- mp4/ltcextension.fl 28 -/
def flagMissing : BitVec 32 := 0xFFFF#32

/-- The answer of `get_interpolated_time_code` once a record `r` with composition time `c` is read, mp4parse.h 3234-3265. -/
def answer (bits av c pt : Nat) (r : Stored) : Stored :=
  if r.user = flagMissing then r
  else if u64 (c + 2 ^ 64 - av) < pt ∧ pt < u64 (c + av) then { r with user := flagRead }
  else
    let m : TC := { ofWord r.code with nFrames := u32 (10000000 / av) }
    if pt > c then { code := toWord (add m (ofTime (pt - c))), user := flagInterpolated }
    else { code := toWord (sub bits m (ofTime (c - pt))), user := flagInterpolated }

/-- `get_interpolated_time_code`, mp4parse.h 3188-3267, for a file with time codes (`LTC_has_one`): `t` is the track
found, `av` its average frame time, `read` the record read at a position of the file. -/
def interpolated (bits : Nat) (t : Track) (av : Nat) (read : Nat → Stored) (presentation : Nat) : Option Stored :=
  let so := t.offset
  let pt := if so < presentation then presentation - so else 0
  match (if so < presentation then t.compSample pt else some 0) with
  | none => none
  | some s =>
    match t.composition s, t.sm.offset s with
    | some c, some p => some (answer bits av c pt (read p))
    | _, _ => none

/-! ### linear time code words -/

/-- `__shift_t_code`, WaveParser.h 479-484; `unsigned long` has `L` bits, 32 on Windows, 64 on Linux. -/
structure Shift (L : Nat) where
  one : BitVec L := 0
  two : BitVec L := 0
  check : BitVec 16 := 0

/-- `push`, WaveParser.h 690-709. -/
def push {L : Nat} (s : Shift L) (bit : Bool) : Shift L :=
  let two := (0x80000000#L &&& s.two) ≠ 0
  let sh := (0x8000#16 &&& s.check) ≠ 0
  { one := (s.one <<< 1) ||| (if two then 1 else 0)
    two := (s.two <<< 1) ||| (if sh then 1 else 0)
    check := (s.check <<< 1) ||| (if bit then 1 else 0) }

/-- `IsValid`, WaveParser.h 508-511. -/
def Shift.isValid {L : Nat} (s : Shift L) : Bool := decide (0x3FFD#16 = s.check)

/-- `FrameUnit` … `MinsTens`, WaveParser.h 513-574: a field of a register. -/
def field {L : Nat} (mask : Nat) (shift : Nat) (r : BitVec L) : Nat := ((BitVec.ofNat L mask &&& r) >>> shift).toNat % 2 ^ 16

/-- `DecodeUnits`, WaveParser.h 581-616. -/
def decodeUnits (n : Nat) : Nat :=
  (((0x01 &&& n) <<< 3) ||| ((0x02 &&& n) <<< 1)) ||| (((0x04 &&& n) >>> 1) ||| ((0x08 &&& n) >>> 3))

/-- `Decode3Tens`, WaveParser.h 618-639. -/
def decode3Tens (n : Nat) : Nat := ((0x01 &&& n) <<< 1) ||| ((0x02 &&& n) >>> 1)

/-- `Decode6Tens`, WaveParser.h 641-668. -/
def decode6Tens (n : Nat) : Nat := ((0x01 &&& n) <<< 2) ||| (0x02 &&& n) ||| ((0x04 &&& n) >>> 2)

/-- `GetTimeCode`, WaveParser.h 670-687. -/
def getTimeCode {L : Nat} (s : Shift L) : TC where
  frames := decode3Tens (field 0x00C00000 22 s.one) * 10 + decodeUnits (field 0xF0000000 28 s.one)
  seconds := decode6Tens (field 0x000000E0 5 s.one) * 10 + decodeUnits (field 0x0000F000 12 s.one)
  minutes := decode6Tens (field 0x00E00000 21 s.two) * 10 + decodeUnits (field 0xF0000000 28 s.two)
  hours := decode3Tens (field 0x000000C0 6 s.two) * 10 + decodeUnits (field 0x0000F000 12 s.two)

/-- State of `push_biphase`, WaveParser.h 771-772: the previous half cell and whether a bit begins with the next one. -/
structure Biphase where
  prev : Bool := false
  state : Bool := false
deriving DecidableEq, Repr

/-- `push_biphase`, WaveParser.h 798-845: the new state and the bit that is pushed, if any. -/
def pushBiphase (s : Biphase) (level : Bool) : Biphase × Option Bool :=
  if level = s.prev then ({ prev := level, state := true }, some false)
  else if s.state then ({ prev := level, state := false }, none)
  else ({ prev := level, state := true }, some true)

/-- The bits pushed for a sequence of half cells. -/
def biphaseAll : Biphase → List Bool → List Bool
  | _, [] => []
  | s, x :: xs => (pushBiphase s x).2.toList ++ biphaseAll (pushBiphase s x).1 xs

end Verif.TimeCode

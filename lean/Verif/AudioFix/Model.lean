import Mathlib.Tactic.Ring
/-
Model of the correction of AAC times: `CAACFixStream` (/repo/src/mg/media/aac_time_fix.h 1-118) and its use in `MP4Mux::add_sample` (/repo/src/mg/media/mp4mux.h 299-327), switched on by the option of the command line
(/repo/src/mgcli/mp4info.cpp 3747).

The code computes with `double`; the model computes exactly. The unit of time in the model is 100 ns divided by the sample rate, so that all quantities are whole numbers: a time of `t` (100 ns) is `t * rate`, and the
duration of one audio sample, `1.0 / rate * 10000000.0`, is 10000000. Only the rounding of `double` is left out.
-/
namespace Verif.AudioFix

/-- Duration of one audio sample. -/
def one : Int := 10000000

/-- `_min_frame_duration`, aac_time_fix.h 31: 1024 samples. -/
def minLen : Int := 1024 * one

/-- `_max_frame_duration`, aac_time_fix.h 32: 1025 samples. -/
def maxLen : Int := 1025 * one

/-- The value `INT32_MAX` that says that there was no frame yet, aac_time_fix.h 36, 62. -/
def nothing (rate : Int) : Int := 2147483647 * rate

/-- `_previus` and `_error`, aac_time_fix.h 9-10. -/
structure Fix where
  prev : Int
  error : Int
deriving DecidableEq, Repr

/-- After `set_info`, aac_time_fix.h 27-39. -/
def Fix.new (rate : Int) : Fix := ⟨nothing rate, nothing rate⟩

/-- The time of a frame and the new `_error`, aac_time_fix.h 74-95. (In 87-93 a second variable `correction` hides the first, which is not used.) -/
def frame (s : Fix) (t : Int) : Int × Int :=
  if maxLen ≤ t - s.prev then (s.prev + maxLen, s.error + (t - s.prev - maxLen))
  else if maxLen - minLen ≤ s.error + (t - s.prev - minLen) then (s.prev + minLen + (maxLen - minLen), s.error + (t - s.prev - minLen) - (maxLen - minLen))
  else (s.prev + minLen, s.error + (t - s.prev - minLen))

/-- The reset, aac_time_fix.h 99-109. -/
def reset (t time : Int) : Int := if (maxLen < t - time ∨ maxLen < time - t) ∧ time < t then t else time

/-- `fix_audio_frequency_timing`, aac_time_fix.h 48-116. -/
def fixTime (rate : Int) (s : Fix) (t : Int) : Int × Fix :=
  if s.prev = nothing rate then (t, ⟨t, 0⟩)
  else (reset t (frame s t).1, ⟨reset t (frame s t).1, (frame s t).2⟩)

/-- The frames of a stream, one after the other. -/
def fixAll (rate : Int) : Fix → List Int → List Int
  | _, [] => []
  | s, t :: ts => (fixTime rate s t).1 :: fixAll rate (fixTime rate s t).2 ts

/-- `add_sample` with the correction, mp4mux.h 308-315: composition and decoding time (100 ns) go in and come out; `DBL_U64` cuts off the fraction. -/
def addTimes (rate : Int) (s : Fix) (x : Int × Int) : (Int × Int) × Fix :=
  let r := fixTime rate s (x.1 * rate)
  let c := r.1 / rate
  ((c, if c ≠ x.1 ∧ x.2 = x.1 then c else x.2), r.2)

/-- All calls of `add_sample` for a stream. -/
def addAll (rate : Int) : Fix → List (Int × Int) → List (Int × Int)
  | _, [] => []
  | s, x :: xs => (addTimes rate s x).1 :: addAll rate (addTimes rate s x).2 xs

end Verif.AudioFix

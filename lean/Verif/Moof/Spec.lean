import Verif.Moof.Model
/-
What is expected of reading fragments: the samples that were put in come out, with their times.
-/
namespace Verif.Moof.Spec
open Verif.Fragment (Sample Frag W)

/-- A fragment as it is asked from the writer: base time, encryption (sub-samples, eight random bytes), track, number, flags of the first sample
(0: no composition offsets are stored), samples; `gs` and `gt` are values of memory that was not initialised. -/
structure Seg where
  base : Nat
  enc : Option (Bool × List UInt8)
  trackId : Nat
  number : Nat
  firstFlags : Nat
  samples : List Sample
  gs : Nat
  gt : Nat

/-- The fragments written one after another into a file. -/
def written (ts : Nat → Nat) (E : List UInt8 → List UInt8) (timescale : Nat) (segs : List Seg) : W :=
  segs.foldl (fun w s => (Frag.make ts E timescale (some s.base) s.enc s.trackId s.number s.firstFlags s.samples).finish s.gs s.gt w) ⟨[], 0, []⟩

/-- A sample with its duration and composition offset in the time scale of the track. -/
structure Timed where
  body : List UInt8
  duration : Int
  offset : Int

/-- Samples on a time line that begins at `t`: each is decoded when the one before it ends, and `shown` tells what a time is for the receiver. -/
def line (shown : Int → Int) (audio : Bool) : (first : Bool) → (t : Int) → List Timed → List Out
  | _, _, [] => []
  | first, t, x :: xs => ⟨x.body, first || audio, shown (t + x.offset), shown t, shown x.duration⟩ :: line shown audio false (t + x.duration) xs

/-- Samples whose decoding times follow from the durations, beginning at `t`. -/
def Consecutive : (t : Nat) → List Sample → Prop
  | _, [] => True
  | t, x :: xs => x.decoding = t ∧ Consecutive (t + x.duration) xs

/-- The calls of `add_sample` that hand on samples as they were: the first of a fragment (and every audio sample) is a sync point. -/
def handed (audio : Bool) : (first : Bool) → List Sample → List Out
  | _, [] => []
  | first, x :: xs => ⟨x.body, first || audio, x.composition, x.decoding, x.duration⟩ :: handed audio false xs

end Verif.Moof.Spec

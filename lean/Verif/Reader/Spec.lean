import Mathlib.Data.List.Forall2
import Verif.Tables.Spec
import Verif.Reader.Model
/-
What a file holds, independent of how the reader looks for it.
-/
namespace Verif.Reader.Spec

/-- The samples of a track, in decoding order: asking the track for sample `n` gives the `n`-th of the list, and there
are no others. -/
def Holds (t : Track) (xs : List Sample) : Prop := ∀ n, t.pick n = some xs[n]?

/-- The tracks of a reader hold the lists of samples `xss`, one list for each track. -/
def FileHolds (r : Reader) (xss : List (List Sample)) : Prop :=
  List.Forall₂ (fun s xs => Holds s.1 xs) r.streams xss

/-- Every sample lies inside the media data. -/
def Inside (xss : List (List Sample)) (mdatEnd : Nat) : Prop :=
  ∀ xs ∈ xss, ∀ x ∈ xs, x.offset + x.size ≤ mdatEnd

/-- Sample `a` lies before sample `b` in the file. -/
def Before (a b : Sample) : Prop := a.offset + a.size ≤ b.offset

/-- The samples of each track lie in the file in their order, no two samples of different tracks share a byte and no
sample is empty. -/
def Disjoint (xss : List (List Sample)) : Prop :=
  (∀ xs ∈ xss, xs.Pairwise Before) ∧ (∀ xs ∈ xss, ∀ x ∈ xs, 0 < x.size) ∧
  ∀ (i j : Nat) (xs ys : List Sample), i ≠ j → xss[i]? = some xs → xss[j]? = some ys →
    ∀ x ∈ xs, ∀ y ∈ ys, Before x y ∨ Before y x

/-- The samples delivered for one track. -/
def ofStream (out : List (Nat × Sample)) (i : Nat) : List Sample := (out.filter (fun o => decide (o.1 = i))).map (·.2)

end Verif.Reader.Spec

namespace Verif.Reader.Spec
open Verif.Tables

/-- Presentation time of a sample of a track: its composition time plus the offset of the track (edit list). -/
def pres (t : Track) (x : Sample) : Nat := x.composition + t.offset

/-- The samples presented from `start` on and before `stop`. -/
def window (t : Track) (start stop : Nat) (xs : List Sample) : List Sample :=
  xs.filter (fun x => decide (start ≤ pres t x ∧ pres t x < stop))

/-- Once a sample is presented at `time` or later, so are all the following ones. -/
def Separates (t : Track) (time : Nat) (xs : List Sample) : Prop :=
  xs.Pairwise (fun x y => time ≤ pres t x → time ≤ pres t y)

/-- The track was opened from boxes whose time table has the runs `es` (sample count, duration): no empty run, no
sample without duration, as many samples as the table of sizes, and times that fit. -/
structure Timed (b : TrackBoxes) (t : Track) (es : List (Nat × Nat)) : Prop where
  opened : openTrack b = some t
  stts : b.stts = es.length :: es.flatMap (fun e => [e.1, e.2])
  pos : ∀ e ∈ es, 0 < e.1 ∧ 0 < e.2
  ne : es ≠ []
  count : b.sm.sampleCount = (Verif.Tables.Spec.expand es).length
  scale : 0 < b.scale
  fits : 10000000 * (Verif.Tables.Spec.expand es).sum < 2 ^ 64

/-- Every track with samples has a time table. -/
def HasTimes (r : Reader) : Prop := ∀ s ∈ r.streams, 0 < s.1.count → s.1.decMap ≠ []

/-- `b` has a sync table with the sample numbers `ns` (from 0), in order and inside the track. -/
structure Synced (b : TrackBoxes) (ns : List Nat) : Prop where
  stss : b.stss = some (ns.length :: ns.map (· + 1))
  ne : ns ≠ []
  sorted : ns.Pairwise (· < ·)
  inside : ∀ n ∈ ns, n < b.sm.sampleCount
  u32 : ∀ n ∈ ns, n + 1 < 2 ^ 32

/-- A sample without its decoding time. -/
def noDecoding (x : Sample) : Sample := { x with decoding := 0 }

/-- Fragments cut one after another at the times given, in one list. -/
def cutAll (r : Reader) (id : Nat) : List Nat → Option (List Sample)
  | a :: b :: rest =>
    match addFrames r id a b none, cutAll r id (b :: rest) with
    | some (out, _), some more => some (out ++ more)
    | _, _ => none
  | _ => some []

/-- `time` is the beginning of a closed group of pictures: the presentation time of a sync sample, before which only
earlier samples and after which only later ones are decoded, and the next sync sample is decoded after it. -/
def GopStart (t : Track) (xs : List Sample) (time : Nat) : Prop :=
  ∃ J x, xs[J]? = some x ∧ x.sync = true ∧ pres t x = time ∧
    (∀ (i : Nat) (y : Sample), i < J → xs[i]? = some y → pres t y < time) ∧ (∀ (i : Nat) (y : Sample), J ≤ i → xs[i]? = some y → time ≤ pres t y) ∧
    ∀ (n : Nat) (y : Sample), J < n → xs[n]? = some y → y.sync = true → time < y.decoding

end Verif.Reader.Spec

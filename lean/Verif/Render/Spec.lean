import Verif.Render.Xml
import Verif.Strings.Spec

/-
How a DASH client reads a manifest (ISO/IEC 23009-1): the segment time line of an adaptation set and the addresses of its segments.
-/
namespace Verif.Render.Spec
open Verif.Render.Xml
open Verif.Strings.Spec (decimal)

/-- An attribute with a decimal number; `dflt` when it is absent, `none` when it is not a number. -/
def number (e : Elem) (n : Str) (dflt : Option Nat) : Option Nat :=
  match attr e n with
  | none => dflt
  | some v => decimal v

/-- `n` segments of duration `d` from time `t` on. -/
def segments (t d : Nat) : Nat → List (Nat × Nat)
  | 0 => []
  | n + 1 => (t, d) :: segments (t + d) d n

/-- The segments (time, duration) of the `S` elements of a `SegmentTimeline`: `@t` is the start, by default the end of what came before,
`@d` the duration, and `@r` the number of repetitions, by default none. -/
def timeline : Nat → List Elem → Option (List (Nat × Nat))
  | _, [] => some []
  | t, e :: es =>
    if e.name = t! "S" then
      (number e (t! "t") (some t)).bind fun t => (number e (t! "d") none).bind fun d => (number e (t! "r") (some 0)).bind fun r =>
        (timeline (t + (r + 1) * d) es).map (segments t d (r + 1) ++ ·)
    else none

/-- The identifiers `$Name$` of a template; `$$` stands for `$`. `inside` is the name being read. -/
def fill (value : Str → Option Str) : (inside : Option Str) → Str → Option Str
  | none, [] => some []
  | some _, [] => none
  | none, c :: s => if c = '$' then fill value (some []) s else (fill value none s).map (c :: ·)
  | some n, c :: s =>
    if c = '$' then
      if n = [] then (fill value none s).map ('$' :: ·)
      else (value n).bind fun v => (fill value none s).map (v ++ ·)
    else fill value (some (n ++ [c])) s

/-- The address of a segment: `$Bandwidth$` is the bandwidth of the representation as it is in the manifest, `$Time$` the start. -/
def address (template bandwidth : Str) (time : Str) : Option Str :=
  fill (fun n => if n = t! "Bandwidth" then some bandwidth else if n = t! "Time" then some time else none) none template

/-- What a client finds in a representation. -/
structure Rep where
  id : Str
  bandwidth : Str
  codecs : Str
deriving DecidableEq

/-- What a client finds in an adaptation set. -/
structure Set where
  media : Str
  initialization : Str
  segments : List (Nat × Nat)
  representations : List Rep
deriving DecidableEq

/-- The only child with a name. -/
def only (es : List Elem) (n : Str) : Option Elem :=
  match es.filter fun e => e.name = n with
  | [e] => some e
  | _ => none

/-- `some` of all values, if there are all. -/
def all {α : Type} : List (Option α) → Option (List α)
  | [] => some []
  | none :: _ => none
  | some a :: l => (all l).map (a :: ·)

/-- A representation of an adaptation set whose attribute `codecs` is `common`, which holds for representations that have none. -/
def readRep (common : Option Str) (e : Elem) : Option Rep :=
  (attr e (t! "id")).bind fun i => (attr e (t! "bandwidth")).bind fun b => ((attr e (t! "codecs")).or common).map fun c => ⟨i, b, c⟩

/-- An `AdaptationSet` with a `SegmentTemplate` in units of 100 ns. -/
def readSet (e : Elem) : Option Set :=
  (only e.children (t! "SegmentTemplate")).bind fun st =>
    if attr st (t! "timescale") = some (t! "10000000") then
      (only st.children (t! "SegmentTimeline")).bind fun tl => (timeline 0 tl.children).bind fun segs =>
        (attr st (t! "media")).bind fun m => (attr st (t! "initialization")).bind fun i =>
          (all ((e.children.filter fun c => c.name = t! "Representation").map (readRep (attr e (t! "codecs"))))).map fun r => ⟨m, i, segs, r⟩
    else none

/-- The adaptation sets of a manifest: one `MPD` with one `Period`. -/
def readMpd (text : Str) : Option (List Set) :=
  match parse text with
  | some [mpd] =>
    if mpd.name = t! "MPD" then
      (only mpd.children (t! "Period")).bind fun p => all ((p.children.filter fun e => e.name = t! "AdaptationSet").map readSet)
    else none
  | _ => none

/-- The duration of the presentation in a manifest. -/
def mpdDuration (text : Str) : Option Str :=
  match parse text with
  | some [mpd] => attr mpd (t! "mediaPresentationDuration")
  | _ => none

/-- A number of seconds with decimals: `(n, k)` stands for `n / 10 ^ k` seconds. -/
def seconds (s : Str) : Option (Nat × Nat) :=
  (decimal (s.takeWhile (· ≠ '.'))).bind fun q =>
    match s.dropWhile (· ≠ '.') with
    | [] => some (q, 0)
    | _ :: f => (decimal f).map fun g => (q * 10 ^ f.length + g, f.length)

/-- The text stands for `ticks` units of 100 ns. -/
def IsTicks (s : Str) (ticks : Nat) : Prop := ∃ n k, seconds s = some (n, k) ∧ n * 10000000 = ticks * 10 ^ k

/-- What RFC 6381 asks for an `avc1` sample: `avc1.` and the hexadecimal text of profile, compatibility flags and level, the second, third
and fourth byte of the sequence parameter set. -/
def IsAvcName (s : Str) (sps : List UInt8) : Prop :=
  ∃ t, s = t! "avc1." ++ t ∧ Verif.Strings.Spec.unhex t = some ((sps.drop 1).take 3)

/-- The addresses a client asks for to play an adaptation set: for each representation its initialization segment and then its segments, with
times in decimal. -/
def addresses (s : Set) : Option (List Str) :=
  (all (s.representations.map fun r => (address s.initialization r.bandwidth []).bind fun i =>
    (all (s.segments.map fun p => address s.media r.bandwidth (Nat.toDigits 10 p.1))).map (i :: ·))).map List.flatten

end Verif.Render.Spec

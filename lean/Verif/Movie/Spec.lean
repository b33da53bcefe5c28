import Verif.Fragment.Spec
import Verif.Tables.Spec
/-
A movie file (ISO/IEC 14496-12) as a strict reader understands it: the boxes by type, the sample tables, the place of every sample in the file. Every table must hold exactly the number of entries it
announces, and all tables must speak of the same number of samples; otherwise the reader refuses the file. Boxes and numbers are read as in the specification of module Fragment.
-/
namespace Verif.Movie.Spec
open Verif.Cenc.Spec (beVal)
open Verif.Fragment.Spec (num raw full Box boxes find chars)
open Verif.Tables.Spec (expand)

/-- The boxes that fill `b`. -/
def parts (b : List UInt8) : Option (List Box) := boxes b.length 0 b

/-- The content of the first box of a type. -/
def child (b : List UInt8) (type : String) : Option (List UInt8) := do
  let bs ← parts b
  (find bs type).map (·.body)

/-- The content of the box at the end of a path of types. -/
def path (b : List UInt8) : List String → Option (List UInt8)
  | [] => some b
  | t :: ts => do path (← child b t) ts

/-- Bytes as 32 bit big-endian words. -/
def words : List UInt8 → Option (List Nat)
  | [] => some []
  | a :: b :: c :: d :: r => (words r).map (beVal [a, b, c, d] :: ·)
  | _ => none

/-- The words of a full box after version and flags. -/
def table (b : List UInt8) : Option (List Nat) := do
  let (_, _, r) ← full b
  words r

def pairs : List Nat → Option (List (Nat × Nat))
  | [] => some []
  | a :: b :: r => (pairs r).map ((a, b) :: ·)
  | _ => none

def triples : List Nat → Option (List (Nat × Nat × Nat))
  | [] => some []
  | a :: b :: c :: r => (triples r).map ((a, b, c) :: ·)
  | _ => none

/-- A table of pairs (count of samples, value): one value per sample (stts 8.6.1.2, ctts 8.6.1.3). -/
def runs (b : List UInt8) : Option (List Nat) := do
  match ← table b with
  | [] => none
  | n :: r =>
    let es ← pairs r
    if es.length = n then some (expand es) else none

/-- A table of single entries (stco 8.7.5, stss 8.6.2). -/
def list (b : List UInt8) : Option (List Nat) := do
  match ← table b with
  | [] => none
  | n :: r => if r.length = n then some r else none

/-- Sample sizes (stsz 8.7.3.2): one size for all, or each its own. -/
def sizes (b : List UInt8) : Option (List Nat) := do
  match ← table b with
  | size :: n :: r => if size = 0 then (if r.length = n then some r else none) else (if r.length = 0 then some (List.replicate n size) else none)
  | _ => none

/-- Sample to chunk (stsc 8.7.4): entries (first chunk, samples per chunk, description). -/
def toChunk (b : List UInt8) : Option (List (Nat × Nat × Nat)) := do
  match ← table b with
  | [] => none
  | n :: r =>
    let es ← triples r
    if es.length = n then some es else none

/-- Samples and description of chunk `c` (counted from 1): the last entry that begins at or before it. -/
def inChunk (es : List (Nat × Nat × Nat)) (c : Nat) : Option (Nat × Nat) := ((es.filter fun e => decide (e.1 ≤ c)).getLast?).map (·.2)

/-- `n` samples one behind the other from `offset`: (offset, size) of each, and the sizes that are left. -/
def inRow : (n offset : Nat) → List Nat → Option (List (Nat × Nat) × List Nat)
  | 0, _, zs => some ([], zs)
  | n + 1, offset, z :: zs => (inRow n (offset + z) zs).map fun r => ((offset, z) :: r.1, r.2)
  | _ + 1, _, [] => none

/-- Where the samples are: (offset, size, description), the chunks from number `c` on beginning at `offsets`. -/
def locate (es : List (Nat × Nat × Nat)) : (c : Nat) → (offsets sizes : List Nat) → Option (List (Nat × Nat × Nat))
  | _, [], [] => some []
  | _, [], _ :: _ => none
  | c, o :: os, zs => do
    let (n, d) ← inChunk es c
    let (here, rest) ← inRow n o zs
    let more ← locate es (c + 1) os rest
    some (here.map (fun x => (x.1, x.2, d)) ++ more)

/-- The bytes at an offset; none if the file ends before. -/
def slice (file : List UInt8) (offset size : Nat) : Option (List UInt8) := if offset + size ≤ file.length then some ((file.drop offset).take size) else none

/-- A sample as a player gets it: `offset` is composition time less decoding time, in units of the track. -/
structure Sample where
  data : List UInt8
  description : Nat
  duration : Nat
  offset : Nat
  sync : Bool
deriving DecidableEq, Repr

/-- Composition offsets of `n` samples: none without a table. -/
def offsetsOf (n : Nat) : Option (List UInt8) → Option (List Nat)
  | none => some (List.replicate n 0)
  | some b => runs b

/-- The numbers (from 1) of the sync samples among `n`: all without a table. -/
def syncsOf (n : Nat) : Option (List UInt8) → Option (List Nat)
  | none => some ((List.range n).map (· + 1))
  | some b => list b

/-- The samples of a track from its sample table box (8.5.1). -/
def samples (file stbl : List UInt8) : Option (List Sample) := do
  let zs ← sizes (← child stbl "stsz")
  let places ← locate (← toChunk (← child stbl "stsc")) 1 (← list (← child stbl "stco")) zs
  let datas ← places.mapM fun x => slice file x.1 x.2.1
  let durations ← runs (← child stbl "stts")
  let offsets ← offsetsOf zs.length (child stbl "ctts")
  let syncs ← syncsOf zs.length (child stbl "stss")
  if durations.length = zs.length ∧ offsets.length = zs.length then
    some ((List.range zs.length).map fun i =>
      ⟨datas.getD i [], (places.getD i (0, 0, 0)).2.2, durations.getD i 0, offsets.getD i 0, syncs.contains (i + 1)⟩)
  else none

/-- One edit (8.6.6): duration in units of the movie, time in the media (none: nothing is shown), rate (16.16). -/
structure Edit where
  duration : Nat
  time : Option Nat
  rate : Nat
deriving DecidableEq, Repr

def editRows : List Nat → Option (List Edit)
  | [] => some []
  | d :: t :: r :: l => (editRows l).map (⟨d, if t = 2 ^ 32 - 1 then none else some t, r⟩ :: ·)
  | _ => none

/-- The edit list box, version 0. -/
def edits (b : List UInt8) : Option (List Edit) := do
  match ← table b with
  | [] => none
  | n :: r =>
    let es ← editRows r
    if es.length = n then some es else none

/-- Times of a header box: creation, modification, then the rest. -/
def times (b : List UInt8) : Option (Nat × List UInt8) := do
  let (v, _, r) ← full b
  let k := if v = 1 then 8 else 4
  let (_, r) ← num k r
  let (_, r) ← num k r
  some (k, r)

/-- Movie header (8.2.2): units per second, duration. The number of the next track are the last four bytes. -/
def mvhd (b : List UInt8) : Option (Nat × Nat × Nat) := do
  let (k, r) ← times b
  let (scale, r) ← num 4 r
  let (duration, r) ← num k r
  let (_, r) ← raw 76 r
  let (next, r) ← num 4 r
  if r = [] then some (scale, duration, next) else none

/-- Track header (8.3.2): flags, track id, duration, volume, width and height (16.16). -/
def tkhd (b : List UInt8) : Option (Nat × Nat × Nat × Nat × Nat × Nat) := do
  let (_, flags, _) ← full b
  let (k, r) ← times b
  let (id, r) ← num 4 r
  let (_, r) ← num 4 r
  let (duration, r) ← num k r
  let (_, r) ← raw 12 r
  let (volume, r) ← num 2 r
  let (_, r) ← raw 38 r
  let (width, r) ← num 4 r
  let (height, r) ← num 4 r
  if r = [] then some (flags, id, duration, volume, width, height) else none

/-- Media header (8.4.2): units per second, duration, language (three characters of five bits). -/
def mdhd (b : List UInt8) : Option (Nat × Nat × List Char) := do
  let (k, r) ← times b
  let (scale, r) ← num 4 r
  let (duration, r) ← num k r
  let (lang, r) ← num 2 r
  let (_, r) ← num 2 r
  if r = [] then some (scale, duration, [lang / 1024 % 32, lang / 32 % 32, lang % 32].map fun x => Char.ofNat (x + 0x60)) else none

/-- Handler (8.4.3): its type. -/
def hdlr (b : List UInt8) : Option (List Char) := do
  let (_, _, r) ← full b
  let (_, r) ← num 4 r
  let (t, _) ← raw 4 r
  some (chars t)

/-- What the samples of a description are. -/
inductive Media where
  | video (width height : Nat)
  | audio (channels rate : Nat)
deriving DecidableEq, Repr

/-- A sample description: the format (of an encrypted one the original format), the parameters, the configuration of the decoder (content of avcC or esds), and for an encrypted one the scheme, the size of the
initialisation vectors and the key. -/
structure Description where
  format : List Char
  media : Media
  config : List UInt8
  protection : Option (List Char × Nat × List UInt8)
deriving DecidableEq, Repr

/-- Original format, scheme, size of the vectors, key identifier of a protection scheme box (8.12; ISO/IEC 23001-7, 8.2). -/
def sinf (b : List UInt8) : Option (List Char × List Char × Nat × List UInt8) := do
  let (format, _) ← raw 4 (← child b "frma")
  let (_, _, r) ← full (← child b "schm")
  let (scheme, _) ← raw 4 r
  let (_, _, r) ← full (← path b ["schi", "tenc"])
  let (_, r) ← num 2 r
  let (on, r) ← num 1 r
  let (iv, r) ← num 1 r
  let (kid, r) ← raw 16 r
  if on = 1 ∧ r = [] then some (chars format, chars scheme, iv, kid) else none

/-- Format and protection, from the type of the sample entry and the boxes in it. -/
def format (type : List Char) (boxes : List UInt8) : Option (List Char × Option (List Char × Nat × List UInt8)) :=
  if type = "encv".toList ∨ type = "enca".toList then do
    let (f, scheme, iv, kid) ← sinf (← child boxes "sinf")
    some (f, some (scheme, iv, kid))
  else some (type, none)

/-- A visual sample entry (12.1.3) or an audio sample entry (12.2.3). -/
def describe (handler : List Char) (type : List Char) (b : List UInt8) : Option Description :=
  if handler = "vide".toList then do
    let (_, r) ← raw 24 b
    let (width, r) ← num 2 r
    let (height, r) ← num 2 r
    let (_, r) ← raw 50 r
    let (f, p) ← format type r
    some ⟨f, .video width height, ← child r "avcC", p⟩
  else do
    let (_, r) ← raw 16 b
    let (channels, r) ← num 2 r
    let (_, r) ← raw 6 r
    let (rate, r) ← num 4 r
    let (f, p) ← format type r
    some ⟨f, .audio channels (rate / 2 ^ 16), ← child r "esds", p⟩

/-- Sample descriptions (8.5.2). -/
def stsd (handler : List Char) (b : List UInt8) : Option (List Description) := do
  let (_, _, r) ← full b
  let (n, r) ← num 4 r
  let bs ← parts r
  if bs.length = n then bs.mapM fun x => describe handler x.type x.body else none

/-- A track. -/
structure Track where
  enabled : Bool
  id : Nat
  /-- in units of the movie -/
  duration : Nat
  volume : Nat
  width : Nat
  height : Nat
  edits : List Edit
  scale : Nat
  /-- in units of the track -/
  mediaDuration : Nat
  language : List Char
  handler : List Char
  descriptions : List Description
  samples : List Sample
deriving DecidableEq, Repr

/-- The edits of a track: none without a table. -/
def editsOf : Option (List UInt8) → Option (List Edit)
  | none => some []
  | some b => edits b

def track (file trak : List UInt8) : Option Track := do
  let (flags, id, duration, volume, width, height) ← tkhd (← child trak "tkhd")
  let es ← editsOf (path trak ["edts", "elst"])
  let (scale, mediaDuration, language) ← mdhd (← path trak ["mdia", "mdhd"])
  let handler ← hdlr (← path trak ["mdia", "hdlr"])
  let stbl ← path trak ["mdia", "minf", "stbl"]
  let descriptions ← stsd handler (← child stbl "stsd")
  let ss ← samples file stbl
  some ⟨flags % 2 == 1, id, duration, volume, width, height, es, scale, mediaDuration, language, handler, descriptions, ss⟩

/-- A movie. -/
structure Movie where
  scale : Nat
  duration : Nat
  nextTrack : Nat
  tracks : List Track
deriving DecidableEq, Repr

/-- The movie in a file. -/
def movie (file : List UInt8) : Option Movie := do
  let moov ← child file "moov"
  let (scale, duration, next) ← mvhd (← child moov "mvhd")
  let bs ← parts moov
  let tracks ← (bs.filter fun b => b.type == "trak".toList).mapM fun b => track file b.body
  some ⟨scale, duration, next, tracks⟩

end Verif.Movie.Spec

import Verif.Cenc.Spec
/-
A media segment (ISO/IEC 14496-12 and 23009-1, sample encryption of 23001-7) as a player reads it: boxes, the segment index, the fragment header, the
run of samples with its data offset, and the sample encryption entries, found both in the 'senc' box and through the auxiliary information
offset and size boxes.
-/
namespace Verif.Fragment.Spec
open Verif.Cenc.Spec (beVal)

/-- A big-endian number of `k` bytes and the rest. -/
def num (k : Nat) (b : List UInt8) : Option (Nat × List UInt8) := if k ≤ b.length then some (beVal (b.take k), b.drop k) else none

/-- The same if `c`, else nothing is read. -/
def opt (c : Bool) (k : Nat) (b : List UInt8) : Option (Option Nat × List UInt8) :=
  if c then (num k b).map fun r => (some r.1, r.2) else some (none, b)

/-- Exactly `k` bytes and the rest. -/
def raw (k : Nat) (b : List UInt8) : Option (List UInt8 × List UInt8) := if k ≤ b.length then some (b.take k, b.drop k) else none

/-- A box: its position, type and content. -/
structure Box where
  pos : Nat
  type : List Char
  body : List UInt8

/-- The four characters of a box type. -/
def chars (b : List UInt8) : List Char := b.map fun x => Char.ofNat x.toNat

/-- Cuts bytes into boxes (4 byte size including the 8 byte header, 4 byte type); `none` if they are not a sequence of boxes. -/
def boxes : (fuel pos : Nat) → List UInt8 → Option (List Box)
  | _, _, [] => some []
  | 0, _, _ => none
  | fuel + 1, pos, b => do
    let (size, r) ← num 4 b
    let (type, r) ← raw 4 r
    if size < 8 then none
    let (body, r) ← raw (size - 8) r
    let bs ← boxes fuel (pos + size) r
    some (⟨pos, chars type, body⟩ :: bs)

/-- The first box of a type. -/
def find (bs : List Box) (type : String) : Option Box := bs.find? fun b => b.type == type.toList

/-- Version and flags of a full box. -/
def full (b : List UInt8) : Option (Nat × Nat × List UInt8) := do
  let (v, r) ← num 1 b
  let (f, r) ← num 3 r
  some (v, f, r)

/-- Two's complement value of a 32 bit field. -/
def signed32 (n : Nat) : Int := if n < 2 ^ 31 then n else (n : Int) - 2 ^ 32

/-- One sample of a run. -/
structure Run where
  duration : Option Nat
  size : Option Nat
  offset : Option Int
deriving DecidableEq, Repr

/-- The per sample fields of a track run box, by its flags (8.8.8). -/
def runs (version flags : Nat) : (n : Nat) → List UInt8 → Option (List Run)
  | 0, _ => some []
  | n + 1, b => do
    let (d, r) ← opt (flags &&& 0x100 != 0) 4 b
    let (s, r) ← opt (flags &&& 0x200 != 0) 4 r
    let (_, r) ← opt (flags &&& 0x400 != 0) 4 r
    let (c, r) ← opt (flags &&& 0x800 != 0) 4 r
    let rest ← runs version flags n r
    some (⟨d, s, c.map fun (c : Nat) => if version = 0 then (c : Int) else signed32 c⟩ :: rest)

/-- Track run box: (data offset, flags of the first sample, samples). -/
def trun (b : List UInt8) : Option (Option Int × Option Nat × List Run) := do
  let (v, flags, r) ← full b
  let (n, r) ← num 4 r
  let (off, r) ← opt (flags &&& 0x1 != 0) 4 r
  let (first, r) ← opt (flags &&& 0x4 != 0) 4 r
  let rs ← runs v flags n r
  some (off.map signed32, first, rs)

/-- The sub-sample ranges of a sample (clear, protected). -/
def ranges : (n : Nat) → List UInt8 → Option (List (Nat × Nat) × List UInt8)
  | 0, b => some ([], b)
  | n + 1, b => do
    let (c, r) ← num 2 b
    let (p, r) ← num 4 r
    let (rest, r) ← ranges n r
    some ((c, p) :: rest, r)

/-- How a sample is encrypted: initialisation vector, ranges. -/
structure Enc where
  iv : List UInt8
  ranges : List (Nat × Nat)
deriving DecidableEq, Repr

/-- One sample encryption entry with 8 byte vector and sub-samples, and the rest. -/
def encEntry (b : List UInt8) : Option (Enc × List UInt8) := do
  let (iv, r) ← raw 8 b
  let (n, r) ← num 2 r
  let (rs, r) ← ranges n r
  some (⟨iv, rs⟩, r)

/-- `n` sample encryption entries. -/
def encEntries : (n : Nat) → List UInt8 → Option (List Enc)
  | 0, _ => some []
  | n + 1, b => do
    let (e, r) ← encEntry b
    let es ← encEntries n r
    some (e :: es)

/-- Sample encryption box with sub-samples (flag 2). -/
def senc (b : List UInt8) : Option (List Enc) := do
  let (_, flags, r) ← full b
  if flags &&& 2 = 0 then none
  let (n, r) ← num 4 r
  encEntries n r

/-- `n` entries of `size` bytes each, one after the other. -/
def auxEntries (size : Nat) : (n : Nat) → List UInt8 → Option (List Enc)
  | 0, _ => some []
  | n + 1, b => do
    let (one, r) ← raw size b
    let (e, _) ← encEntry one
    let es ← auxEntries size n r
    some (e :: es)

/-- The sample encryption entries through the auxiliary information boxes (one run, offsets from the start of the moof, one size for all). -/
def aux (fromMoof saiz saio : List UInt8) : Option (List Enc) := do
  let (_, fl, r) ← full saiz
  if fl ≠ 0 then none
  let (size, r) ← num 1 r
  let (n, _) ← num 4 r
  if size = 0 then none
  let (v, fl, r) ← full saio
  if fl ≠ 0 ∨ v ≠ 0 then none
  let (k, r) ← num 4 r
  if k ≠ 1 then none
  let (off, _) ← num 4 r
  auxEntries size n (fromMoof.drop off)

/-- Cuts data into samples of the given sizes. -/
def cut : List Nat → List UInt8 → Option (List (List UInt8))
  | [], _ => some []
  | s :: ss, b => do
    let (one, r) ← raw s b
    let rest ← cut ss r
    some (one :: rest)

/-- What the index of the segment says (one reference). -/
structure Index where
  trackId : Nat
  timescale : Nat
  earliest : Nat
  firstOffset : Nat
  /-- 0: media -/
  refType : Nat
  refSize : Nat
  duration : Nat
  startsWithSap : Bool
  sapType : Nat
  sapDelta : Nat
deriving DecidableEq, Repr

/-- Segment index box with one reference (8.16.3). -/
def sidx (b : List UInt8) : Option Index := do
  let (v, _, r) ← full b
  let (id, r) ← num 4 r
  let (ts, r) ← num 4 r
  let (e, r) ← num (if v = 0 then 4 else 8) r
  let (o, r) ← num (if v = 0 then 4 else 8) r
  let (_, r) ← num 2 r
  let (n, r) ← num 2 r
  if n ≠ 1 then none
  let (ref, r) ← num 4 r
  let (d, r) ← num 4 r
  let (sap, _) ← num 4 r
  some ⟨id, ts, e, o, ref / 2 ^ 31, ref % 2 ^ 31, d, sap / 2 ^ 31 == 1, sap / 2 ^ 28 % 8, sap % 2 ^ 28⟩

/-- What a player knows about a segment. -/
structure Segment where
  index : Index
  /-- bytes from the end of the index (its anchor point) to the end of the segment -/
  anchored : Nat
  sequence : Nat
  trackId : Nat
  /-- decoding time of the first sample -/
  base : Option Nat
  firstFlags : Option Nat
  runs : List Run
  /-- content of the samples, located through the data offset and the sizes -/
  data : List (List UInt8)
  /-- content of the media data box -/
  mdat : List UInt8
  /-- sample encryption from the 'senc' box -/
  senc : Option (List Enc)
  /-- sample encryption through the auxiliary information boxes -/
  aux : Option (List Enc)

/-- The decoding time of a fragment, if it is there. -/
def baseTime (inTraf : List Box) : Option (Option Nat) :=
  match find inTraf "tfdt" with
  | none => some none
  | some b => do
    let (v, _, r) ← full b.body
    let (t, _) ← num (if v = 0 then 4 else 8) r
    some (some t)

/-- The entries of the 'senc' box, if it is there. -/
def sencOf (inTraf : List Box) : Option (Option (List Enc)) :=
  match find inTraf "senc" with
  | none => some none
  | some b => (senc b.body).map some

/-- The entries found through 'saiz' and 'saio', if they are there. -/
def auxOf (fromMoof : List UInt8) (inTraf : List Box) : Option (Option (List Enc)) :=
  match find inTraf "saiz", find inTraf "saio" with
  | some z, some o => (aux fromMoof z.body o.body).map some
  | _, _ => some none

/-- Reads a segment: 'styp', 'sidx', 'moof', 'mdat'. -/
def segment (file : List UInt8) : Option Segment := do
  let top ← boxes file.length 0 file
  if top.map (·.type) ≠ ["styp".toList, "sidx".toList, "moof".toList, "mdat".toList] then none
  let index ← (← find top "sidx") |>.body |> sidx
  let moof ← find top "moof"
  let mdat ← find top "mdat"
  let inMoof ← boxes moof.body.length 0 moof.body
  let (_, _, r) ← full (← find inMoof "mfhd").body
  let (seq, _) ← num 4 r
  let inTraf ← boxes file.length 0 (← find inMoof "traf").body
  let (_, fl, r) ← full (← find inTraf "tfhd").body
  if fl ≠ 0 then none
  let (id, _) ← num 4 r
  let base ← baseTime inTraf
  let (off, first, rs) ← trun (← find inTraf "trun").body
  let off ← off
  let sizes ← rs.mapM (·.size)
  let data ← cut sizes (file.drop (moof.pos + off).toNat)
  let enc ← sencOf inTraf
  let auxi ← auxOf (file.drop moof.pos) inTraf
  some ⟨index, file.length - moof.pos, seq, id, base, first, rs, data, mdat.body, enc, auxi⟩

end Verif.Fragment.Spec

import Verif.Moof.Spec
import Verif.Fragment.Segment
/-
Media fragments of any program (ISO/IEC 14496-12, 8.8, and 23001-7), with one track fragment and one run: their bytes and what a reader should get from them.
-/
namespace Verif.Moof.Spec
open Verif.Fragment (fourcc box)
open Verif.Fragment.Spec (signed32)
open Verif.Cenc.Spec (be)

/-- Version and flags of a full box. -/
def vf (v f : Nat) : List UInt8 := be 1 v ++ be 3 f

/-- A field of `k` bytes that is there if a flag is set. -/
def field (flags bit k v : Nat) : List UInt8 := if flags &&& bit ≠ 0 then be k v else []

/-- User types of the boxes tfxd and tfrf of Smooth Streaming. -/
def tfxdType : List UInt8 := [0x6D, 0x1D, 0x9B, 0x05, 0x42, 0xD5, 0x44, 0xE6, 0x80, 0xE2, 0x14, 0x1D, 0xAF, 0xF7, 0x57, 0xB2]
def tfrfType : List UInt8 := [0xD4, 0x80, 0x7E, 0xF2, 0xCA, 0x39, 0x46, 0x95, 0x8E, 0x54, 0x26, 0xCB, 0x9E, 0x46, 0xA7, 0x9F]

/-- A time and a duration, of 64 bits in version 1. -/
def span (v : Nat) (x : Nat × Nat) : List UInt8 := if v = 1 then be 8 x.1 ++ be 8 x.2 else be 4 x.1 ++ be 4 x.2

/-- Boxes that say nothing about the samples: any type but those that have a meaning here; the boxes that tell where encryption data is; and tfxd and tfrf. -/
inductive Extra
  | other (type : Nat) (body : List UInt8)
  | saiz (flags auxType : Nat) (size : Nat) (sizes : List UInt8)
  | saio (version flags auxType : Nat) (offsets : List Nat)
  | tfxd (version : Nat) (x : Nat × Nat)
  | tfrf (version : Nat) (xs : List (Nat × Nat))

def Extra.bytes : Extra → List UInt8
  | .other t b => box t b
  | .saiz flags aux size sizes => box (fourcc 's' 'a' 'i' 'z') (vf 0 flags ++ field flags 1 8 aux ++ be 1 size ++ be 4 sizes.length ++ (if size = 0 then sizes else []))
  | .saio v flags aux offsets => box (fourcc 's' 'a' 'i' 'o') (vf v flags ++ field flags 1 8 aux ++ be 4 offsets.length ++ offsets.flatMap (be (if v = 0 then 4 else 8)))
  | .tfxd v x => box (fourcc 'u' 'u' 'i' 'd') (tfxdType ++ vf v 0 ++ span v x)
  | .tfrf v xs => box (fourcc 'u' 'u' 'i' 'd') (tfrfType ++ vf v 0 ++ be 1 xs.length ++ xs.flatMap (span v))

/-- Types that mean something to the reader (`free` is passed over and is not in the list). -/
def meaning : List Nat :=
  [fourcc 'm' 'o' 'o' 'f', fourcc 't' 'r' 'a' 'f', fourcc 't' 'f' 'h' 'd', fourcc 'm' 'f' 'h' 'd', fourcc 't' 'f' 'd' 't', fourcc 't' 'r' 'u' 'n', fourcc 'm' 'd' 'a' 't',
   fourcc 's' 'a' 'i' 'o', fourcc 's' 'a' 'i' 'z', fourcc 't' 'e' 'n' 'c', fourcc 's' 'e' 'n' 'c', fourcc 'u' 'u' 'i' 'd']

def Extra.Ok : Extra → Prop
  | .other t _ => t < 2 ^ 32 ∧ t ∉ meaning
  | .saiz flags _ size sizes => flags < 2 ^ 24 ∧ size < 2 ^ 8 ∧ sizes.length < 2 ^ 32
  | .saio v flags _ offsets => v < 2 ^ 8 ∧ flags < 2 ^ 24 ∧ offsets.length < 2 ^ 32
  | .tfxd v _ => v < 2 ^ 8
  | .tfrf v xs => v < 2 ^ 8 ∧ xs.length < 2 ^ 8

/-- The bytes of several. -/
def extras (xs : List Extra) : List UInt8 := xs.flatMap Extra.bytes

/-- A sample as a run describes it (those of the numbers that the flags call for), its bytes as stored; `offset` is the 32 bit field. -/
structure AnySample where
  duration : Nat
  flags : Nat
  offset : Nat
  data : List UInt8

/-- Encryption of a sample: vector, clear and protected bytes. -/
structure Protection where
  iv : List UInt8
  subs : List (Nat × Nat)

/-- A fragment. -/
structure AnyFragment where
  before : List Extra
  number : Nat
  inMoof : List Extra
  tfhdFlags : Nat
  track : Nat
  description : Nat
  defDuration : Nat
  defSize : Nat
  defFlags : Nat
  afterTfhd : List Extra
  tfdtVersion : Nat
  base : Nat
  afterTfdt : List Extra
  trunVersion : Nat
  trunFlags : Nat
  firstFlags : Nat
  samples : List AnySample
  afterTrun : List Extra
  /-- flags of the senc box, entries -/
  senc : Option (Nat × List Protection)
  afterSenc : List Extra
  afterMoof : List Extra
  /-- what lies before and after the samples in the data box -/
  gap : List UInt8
  tail : List UInt8

def AnyFragment.trunItem (f : AnyFragment) (s : AnySample) : List UInt8 :=
  field f.trunFlags 0x100 4 s.duration ++ field f.trunFlags 0x200 4 s.data.length ++ field f.trunFlags 0x400 4 s.flags ++ field f.trunFlags 0x800 4 s.offset

def protection (flags : Nat) (p : Protection) : List UInt8 :=
  p.iv ++ field flags 2 2 p.subs.length ++ p.subs.flatMap fun x => be 2 x.1 ++ be 4 x.2

def sencBytes : Option (Nat × List Protection) → List UInt8
  | none => []
  | some (flags, ps) => box (fourcc 's' 'e' 'n' 'c') (vf 0 flags ++ be 4 ps.length ++ ps.flatMap (protection flags))

/-- The bodies of the boxes; a base data offset, if there is one, is the place `moof` of the fragment. -/
def AnyFragment.tfhd (f : AnyFragment) (moof : Nat) : List UInt8 :=
  vf 0 f.tfhdFlags ++ be 4 f.track ++ field f.tfhdFlags 0x1 8 moof ++ field f.tfhdFlags 0x2 4 f.description ++ field f.tfhdFlags 0x8 4 f.defDuration ++
    field f.tfhdFlags 0x10 4 f.defSize ++ field f.tfhdFlags 0x20 4 f.defFlags

def AnyFragment.tfdt (f : AnyFragment) : List UInt8 := vf f.tfdtVersion 0 ++ be (if f.tfdtVersion = 1 then 8 else 4) f.base

def AnyFragment.trun (f : AnyFragment) (offset : Nat) : List UInt8 :=
  vf f.trunVersion f.trunFlags ++ be 4 f.samples.length ++ field f.trunFlags 0x1 4 offset ++ field f.trunFlags 0x4 4 f.firstFlags ++ f.samples.flatMap f.trunItem

def AnyFragment.traf (f : AnyFragment) (moof offset : Nat) : List UInt8 :=
  box (fourcc 't' 'f' 'h' 'd') (f.tfhd moof) ++ (extras f.afterTfhd ++ (box (fourcc 't' 'f' 'd' 't') f.tfdt ++ (extras f.afterTfdt ++
    (box (fourcc 't' 'r' 'u' 'n') (f.trun offset) ++ (extras f.afterTrun ++ (sencBytes f.senc ++ extras f.afterSenc))))))

def AnyFragment.moof (f : AnyFragment) (moof offset : Nat) : List UInt8 :=
  box (fourcc 'm' 'f' 'h' 'd') (vf 0 0 ++ be 4 f.number) ++ (extras f.inMoof ++ box (fourcc 't' 'r' 'a' 'f') (f.traf moof offset))

def AnyFragment.mdat (f : AnyFragment) : List UInt8 := f.gap ++ ((f.samples.map (·.data)).flatten ++ f.tail)

/-- Bytes of the fragment at the place `at` of a file; the data offset counts from the beginning of the moof box. -/
def AnyFragment.bytes (f : AnyFragment) (place : Nat) : List UInt8 :=
  let moof := place + (extras f.before).length
  let offset := 8 + (f.moof moof 0).length + (extras f.afterMoof).length + 8 + f.gap.length
  extras f.before ++ (box (fourcc 'm' 'o' 'o' 'f') (f.moof moof offset) ++ (extras f.afterMoof ++ box (fourcc 'm' 'd' 'a' 't') f.mdat))

/-- Fragments one after another, the first at `place`. -/
def anyFile : (place : Nat) → List AnyFragment → List UInt8
  | _, [] => []
  | place, f :: fs => f.bytes place ++ anyFile (place + (f.bytes place).length) fs

/-- The duration of a sample: its own or that of the fragment header. -/
def AnyFragment.durationOf (f : AnyFragment) (s : AnySample) : Nat := if f.trunFlags &&& 0x100 ≠ 0 then s.duration else f.defDuration

/-- The composition offset of a sample; in version 0 it is not negative. -/
def AnyFragment.offsetOf (f : AnyFragment) (s : AnySample) : Int :=
  if f.trunFlags &&& 0x800 = 0 then 0 else if f.trunVersion = 0 then s.offset else signed32 s.offset

/-- The sample in the clear, if there is a key. -/
def inClear (key : Option (List UInt8 → List UInt8)) (p : Option Protection) (data : List UInt8) : List UInt8 :=
  match key, p with
  | some E, some p => Cenc.Spec.decrypt E p.iv (if p.subs = [] then [(0, data.length)] else p.subs) data
  | _, _ => data

/-- What the fragment says: its samples in the clear, with durations and offsets, on a time line that begins at `base`. -/
def AnyFragment.timed (f : AnyFragment) (key : Option (List UInt8 → List UInt8)) : List Timed :=
  f.samples.mapIdx fun n s => ⟨inClear key (f.senc.bind fun x => x.2[n]?) s.data, f.durationOf s, f.offsetOf s⟩

/-- The fields fit, what is not in the run is in the fragment header, and what the fields say holds. -/
structure AnyFragment.Ok (f : AnyFragment) : Prop where
  extras : ∀ xs ∈ [f.before, f.inMoof, f.afterTfhd, f.afterTfdt, f.afterTrun, f.afterSenc, f.afterMoof], ∀ x ∈ xs, x.Ok
  tfhdFlags : f.tfhdFlags < 2 ^ 24
  defDuration : f.defDuration < 2 ^ 32
  defSize : f.defSize < 2 ^ 32
  tfdtVersion : f.tfdtVersion < 2 ^ 8
  base : f.base < if f.tfdtVersion = 1 then 2 ^ 63 else 2 ^ 32
  trunVersion : f.trunVersion < 2 ^ 8
  trunFlags : f.trunFlags < 2 ^ 24
  count : f.samples.length < 2 ^ 32
  durations : if f.trunFlags &&& 0x100 ≠ 0 then ∀ s ∈ f.samples, s.duration < 2 ^ 31 else f.tfhdFlags &&& 0x8 ≠ 0
  sizes : if f.trunFlags &&& 0x200 ≠ 0 then ∀ s ∈ f.samples, s.data.length < 2 ^ 32 else f.tfhdFlags &&& 0x10 ≠ 0 ∧ ∀ s ∈ f.samples, s.data.length = f.defSize
  offsets : f.trunFlags &&& 0x800 ≠ 0 → ∀ s ∈ f.samples, s.offset < if f.trunVersion = 0 then 2 ^ 31 else 2 ^ 32
  senc : ∀ flags ps, f.senc = some (flags, ps) → flags < 2 ^ 24 ∧ ps.length = f.samples.length ∧
    (∀ p ∈ ps, p.iv.length = 8 ∧ p.subs.length < 2 ^ 16 ∧ (flags &&& 2 = 0 → p.subs = []) ∧ ∀ x ∈ p.subs, x.1 < 2 ^ 16 ∧ x.2 < 2 ^ 32) ∧
    ∀ (k : Nat) (p : Protection) (s : AnySample), ps[k]? = some p → f.samples[k]? = some s → p.subs ≠ [] → (p.subs.map fun x => x.1 + x.2).sum = s.data.length
  start : f.trunFlags &&& 1 = 0 → f.gap = []

end Verif.Moof.Spec

import Verif.Render.Smooth
/-
Model of the description of the video bit rates of a presentation: the codec private data (sequence and picture parameter set with their lengths), made when the first files are added
(/repo/src/mg/media/mp4dynamic.h 208-237, mp4dynamic.cpp 129-193, mp4dynamicinfo.h 48-64, 538-545, 985-1090), and read again for the initialization segment (mp4write.h 1974-1996, mp4fragmented.h 712-715).
The manifests read it in module Render (`startCodes`, `videoCodec`).

`std::map` is a function. Not modelled: opening and reading of the files (module Parse), audio bit rates (module Presentation).
-/
namespace Verif.CodecData

/-- The lengths as 16 bit number, high byte first: `out[0] = size >> 8 & 0xFF; out[1] = size & 0xFF`. -/
def size16 (n : Nat) : List UInt8 := [UInt8.ofNat (n / 256 % 256), UInt8.ofNat (n % 256)]

/-- `compute_video_private_data`, mp4dynamic.h 208-237; the buffer has room for all of it (lines 216-218). -/
def compute (sps pps : List UInt8) : List UInt8 := size16 sps.length ++ sps ++ (size16 pps.length ++ pps)

/-- `add_visual_stream` of the writer with codec private data, mp4write.h 1974-1996: the two sets that are found in it; `none`: reads behind the data. -/
def split (data : List UInt8) : Option (List UInt8 × List UInt8) :=
  match data with
  | a :: b :: rest =>
    let n := a.toNat * 256 + b.toNat
    if rest.length < n then none
    else
      match rest.drop n with
      | c :: d :: rest' =>
        let m := c.toNat * 256 + d.toNat
        if rest'.length < m then none else some (rest.take n, rest'.take m)
      | _ => none
  | _ => none

/-- What a file says about a video stream: its first sequence and picture parameter set and the size of the picture. -/
structure Visual where
  sps : List UInt8
  pps : List UInt8
  width : Nat
  height : Nat
deriving DecidableEq, Repr

/-- A stream of a file. -/
inductive Stream
  | visual (v : Visual)
  | other
deriving DecidableEq, Repr

/-- `dynamic_item`: a file with its bit rate. -/
structure Item where
  rate : Nat
  streams : List Stream
deriving DecidableEq, Repr

/-- `DynamicBitrateVideo`: private data, width and height. -/
structure Entry where
  data : List UInt8
  width : Nat
  height : Nat
deriving DecidableEq, Repr

/-- mp4dynamicinfo.h 1051-1082: the data of a file for its bit rate; the same is done for the streams of the first file (mp4dynamic.cpp 129-193, mp4dynamicinfo.h 1133-1144). -/
def entryOf (v : Visual) : Entry := ⟨compute v.sps v.pps, v.width, v.height⟩

abbrev Rates := Nat → Option Entry

/-- `AddBitRate`, mp4dynamicinfo.h 538-545: a new one takes the place of the old one. -/
def Rates.add (m : Rates) (rate : Nat) (e : Entry) : Rates := fun r => if r = rate then some e else m r

/-- The loop over the files, mp4dynamicinfo.h 1029-1082, for the video stream `i`; `none`: an exception. -/
def others (i : Nat) : Rates → List Item → Option Rates
  | m, [] => some m
  | m, item :: items =>
    match item.streams[i]? with
    | some (.visual v) => others i (m.add item.rate (entryOf v)) items
    | _ => none

/-- mp4dynamicinfo.h 985-1085 for the video stream `i`, which has the data `first` (lines 1012-1028): the bit rates of the first `Add`. -/
def rates (i : Nat) (first : Entry) (item : Item) (items : List Item) : Option Rates :=
  others i (Rates.add (fun _ => none) item.rate first) items

end Verif.CodecData

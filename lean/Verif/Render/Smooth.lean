import Verif.Render.Model
import Verif.Clock.Model

/-
Model of `SSFRenderer` (src/mg/media/mp4dynamicinfo.h 1207-1394), the Smooth Streaming manifest.
-/
namespace Verif.Render
open Verif.Strings (dec decInt appendHex)

/-- The arguments of `add_point_info` and `add_point_info_cross`. -/
structure Info where
  path : Str
  composition : Nat
  computed : Nat
  cross : Bool

/-- src/mg/media/mp4dynamicinfo.h 429-475: `render` of the points of a stream, whose times are the keys of a map: one `add_point` for each key
but the last, with the distance to the next key; in between the calls for the point's files (`infos`, here in the order of the points). -/
def pointsOf : List Nat → List (Nat × Nat)
  | a :: b :: keys => (a, b - a) :: pointsOf (b :: keys)
  | _ => []

/-- src/mg/media/mp4dynamicinfo.h 1209-1223: the members; `_points` and `_bitrates` are written at once. -/
structure Ssf where
  xml : Str := []
  index : Int := -1
  beginStream : Bool := false
  useName : Bool := true

/-- src/mg/media/mp4dynamicinfo.h 1225-1231: `begin`. -/
def Ssf.start (r : Ssf) (duration : Nat) : Ssf :=
  { r with xml := r.xml ++ t! "<SmoothStreamingMedia MajorVersion=\"2\" MinorVersion=\"1\" Duration=\"" ++ dec duration ++ t! "\">\r\n" }

/-- src/mg/media/mp4dynamicinfo.h 1233-1264: `begin_stream`. -/
def Ssf.begin (r : Ssf) (name : Str) (points bitrates : Int) (isVideo : Bool) : Ssf :=
  let type := if isVideo then t! "video" else t! "audio"
  let ext := if isVideo then t! ".m4v" else t! ".m4a"
  { r with
    beginStream := true
    xml := r.xml ++ t! "<StreamIndex Type=\"" ++ type ++ t! "\" Url=\"" ++ (if r.useName then name else type) ++ t! "_{bitrate}_{start time}" ++ ext
      ++ t! "\" Name=\"" ++ name ++ t! "\" Chunks=\"" ++ decInt points ++ t! "\" QualityLevels=\"" ++ decInt bitrates ++ t! "\">\r\n" }

/-- src/mg/media/mp4dynamicinfo.h 1270-1288: the codec data with start codes in place of the lengths. The code is only defined when
the data holds the lengths and as many bytes as the first one says. -/
def startCodes (data : List UInt8) : List UInt8 :=
  let n := (data.getD 0 0).toNat * 256 ||| (data.getD 1 0).toNat
  [0, 0, 0, 1] ++ (data.drop 2).take n ++ [0, 0, 0, 1] ++ data.drop (4 + n)

/-- src/mg/media/mp4dynamicinfo.h 1266-1303 and 1304-1334: `add_video_bitrate` and `add_audio_bitrate`. -/
def Ssf.addBitrate (r : Ssf) : Bitrate → Ssf
  | .video b w h d =>
    { r with
      index := r.index + 1
      xml := r.xml ++ t! "<QualityLevel Index=\"" ++ decInt (r.index + 1) ++ t! "\" Bitrate=\"" ++ decInt b ++ t! "\" CodecPrivateData=\""
        ++ appendHex [] (startCodes d) ++ t! "\" FourCC=\"AVC1\" MaxWidth=\"" ++ decInt w ++ t! "\" MaxHeight=\"" ++ decInt h ++ t! "\" />\r\n" }
  | .audio b rate channels bits =>
    { r with
      index := r.index + 1
      xml := r.xml ++ t! "<QualityLevel Index=\"" ++ decInt (r.index + 1) ++ t! "\" Bitrate=\"" ++ decInt b
        ++ t! "\" FourCC=\"\" AudioTag=\"255\" CodecPrivateData=\"\"  Channels=\"" ++ decInt channels ++ t! "\" SamplingRate=\"" ++ decInt rate
        ++ t! "\" BitsPerSample=\"" ++ decInt bits ++ t! "\" PacketSize=\"4\"" ++ t! "/>\r\n" }

/-- src/mg/media/mp4dynamicinfo.h 1335-1352: `add_point`. -/
def Ssf.addPoint (r : Ssf) (t d : Nat) : Ssf :=
  { r with
    beginStream := false
    xml := r.xml ++ t! "<c d=\"" ++ dec d ++ (if r.beginStream then t! "\" t=\"" ++ dec t else []) ++ t! "\">" }

/-- src/mg/media/mp4dynamicinfo.h 1353-1377: `add_point_info` and `add_point_info_cross`; `hns` takes an `int64_t`. -/
def Info.text (i : Info) : Str :=
  (if i.cross then t! "<cp p=\"" else t! "<h p=\"") ++ i.path ++ t! "\" t=\"" ++ dec i.composition ++ t! "\" c=\"" ++ dec i.computed ++ t! "\" k=\""
    ++ Verif.Clock.hns (if i.computed < 2 ^ 63 then i.computed else i.computed - 2 ^ 64) ++ t! "\" />"

/-- src/mg/media/mp4dynamicinfo.h 429-475: one point with its files and `end_point` (1378-1381). -/
def Ssf.point (r : Ssf) (t d : Nat) (infos : List Info) : Ssf :=
  let r := r.addPoint t d
  { r with xml := r.xml ++ (infos.map Info.text).flatten ++ t! "</c>\r\n" }

/-- A stream as it is rendered: its points are given by `keys`; `infos` are the files of each point. -/
structure SmoothStream where
  name : Str
  isVideo : Bool
  bitrates : List Bitrate
  keys : List Nat
  infos : List (List Info)

/-- src/mg/media/mp4dynamicinfo.h 654-680: `DynamicStream::render` on a `SSFRenderer`, `end_stream` at 1382-1385. -/
def Ssf.stream (r : Ssf) (s : SmoothStream) : Ssf :=
  let r := s.bitrates.foldl Ssf.addBitrate (r.begin s.name s.keys.length s.bitrates.length s.isVideo)
  let r := ((pointsOf s.keys).zip s.infos).foldl (fun r p => r.point p.1.1 p.1.2 p.2) r
  { r with xml := r.xml ++ t! "</StreamIndex>\r\n" }

/-- src/mg/media/mp4dynamicinfo.h 936-948 and 1386-1390: `DynamicPresentation::render` on a `SSFRenderer`: the text of the document. -/
def ssfDocument (r : Ssf) (duration : Nat) (streams : List SmoothStream) : Str :=
  (streams.foldl Ssf.stream (r.start duration)).xml ++ t! "</SmoothStreamingMedia>"

/-- src/mg/media/mp4dynamic.h 208-237: `compute_video_private_data`. -/
def privateData (sps pps : List UInt8) : List UInt8 :=
  [UInt8.ofNat ((sps.length >>> 8) &&& 0xFF), UInt8.ofNat (sps.length &&& 0xFF)] ++ sps ++
    [UInt8.ofNat ((pps.length >>> 8) &&& 0xFF), UInt8.ofNat (pps.length &&& 0xFF)] ++ pps

end Verif.Render

import Verif.Render.Text
import Verif.Strings.Model

/-
Model of the manifests: `MPDRenderer` (src/mg/media/mpd_renderer.h), `HLSRenderer` (src/mg/media/hls_renderer.h, without the encryption,
which is in Verif.HlsCrypt) and `SSFRenderer` (src/mg/media/mp4dynamicinfo.h), the order in which `DynamicPresentation::render` calls them, and
the names of the files the command line tools write. A `Cstring` is a list of characters. `FRAGMENTEDSTYPFALSE` is not defined
(src/mgmedia.h 30-42).
-/
namespace Verif.Render
open Verif.Strings (dec decInt appendHex replace)

abbrev Str := List Char

/-! ### The calls -/

/-- A call `add_video_bitrate` or `add_audio_bitrate` with the arguments the renderers use. -/
inductive Bitrate
  | video (bitRate width height : Int) (codecData : List UInt8)
  | audio (bitRate samplingRate channels bitsPerSample : Int)

/-- What `DynamicStream::render` (src/mg/media/mp4dynamicinfo.h 654-680) tells a renderer about a stream: its name, kind, number of points,
bitrates (`render_type`, lines 720-731 and 750-768) and the `add_point` calls (time and duration). -/
structure Stream where
  name : Str
  isVideo : Bool
  count : Nat
  bitrates : List Bitrate
  points : List (Nat × Nat)

/-- src/mg/media/hls_renderer.h 125-131 and src/mg/media/mpd_renderer.h 145-151: `profile_compatibility`: the operands of `||` are
converted to bool. -/
def compatibility (b : UInt8) : UInt8 :=
  if (b.toNat &&& 0x80) / 2 ^ 7 ≠ 0 ∨ (b.toNat &&& 0x40) * 2 ^ 6 ≠ 0 ∨ (b.toNat &&& 0x20) * 2 ^ 5 ≠ 0 ∨ (b.toNat &&& 0x10) * 2 ^ 4 ≠ 0 then 1
  else 0

/-- src/mg/media/mpd_renderer.h 138-155 and src/mg/media/hls_renderer.h 119-135: the codec name of a video bitrate (`codecs` is empty and
`_video_codec` has been cleared before). -/
def videoCodec (data : List UInt8) : Str :=
  appendHex (appendHex (appendHex (t! "avc1.") [data.getD 3 0]) [compatibility (data.getD 4 0)]) [data.getD 5 0]

/-- src/mg/media/mpd_renderer.h 70 and 81-83, src/mg/media/hls_renderer.h 206-211: the text of a duration. -/
def durationText (d : Nat) : Str := dec (d / 10000000) ++ t! "." ++ dec (d % 1000000)

/-! ### MPDRenderer -/

/-- src/mg/media/mpd_renderer.h 28-53: the members. -/
structure Mpd where
  xml : Str := []
  streamId : Int := 0
  groupId : Int := 1
  streamXml : Str := []
  pointsXml : Str := []
  reprXml : Str := []
  codecs : Str := []
  maxWidth : Int := 0
  maxHeight : Int := 0
  current : Str := []
  isVideo : Bool := false
  time : Nat := 0
  lastDuration : Nat := 0
  lastCount : Nat := 0
  useName : Bool := true
  vProtection : List Str := []
  aProtection : List Str := []

/-- src/mg/media/mpd_renderer.h 68-87: `begin`. -/
def Mpd.start (m : Mpd) (duration : Nat) : Mpd :=
  let xml := m.xml
    ++ t! "<MPD xmlns=\"urn:mpeg:dash:schema:mpd:2011\" xmlns:xsi=\"http://www.w3.org/2001/XMLSchema-instance\" "
    ++ t! "profiles=\"urn:mpeg:dash:profile:isoff-live:2011\" type=\"static\" "
  let xml := if m.vProtection.length ≠ 0 ∨ m.aProtection.length ≠ 0
    then xml ++ t! "xmlns:cenc=\"urn:mpeg:cenc:2013\" xmlns:mspr=\"urn:microsoft:playready\" " else xml
  { m with xml := xml ++ t! "mediaPresentationDuration=\"PT" ++ durationText duration
      ++ t! "S\" minBufferTime=\"PT3S\">\r\n" ++ t! "\t<Period>\r\n" }

/-- src/mg/media/mpd_renderer.h 89-134: `begin_stream`. -/
def Mpd.beginStream (m : Mpd) (name : Str) (isVideo : Bool) : Mpd :=
  let id := m.streamId + 1
  { m with
    streamId := id
    codecs := []
    reprXml := []
    pointsXml := []
    current := if m.useName then name else if isVideo then t! "video" else t! "audio"
    isVideo := isVideo
    time := 0
    lastDuration := 0
    lastCount := 0
    streamXml := t! "\t\t<AdaptationSet id=\"" ++ decInt id ++ t! "\" group=\"" ++ decInt m.groupId
      ++ t! "\" segmentAlignment=\"true\" contentType=\"" ++ (if isVideo then t! "video" else t! "audio")
      ++ t! "\" mimeType=\"" ++ (if isVideo then t! "video/mp4" else t! "audio/mp4") ++ t! "\" " }

/-- src/mg/media/mpd_renderer.h 136-207: `add_video_bitrate`. -/
def Mpd.addVideo (m : Mpd) (bitRate width height : Int) (data : List UInt8) : Mpd :=
  let codecs := videoCodec data
  let addCodec := if m.codecs.length = 0 then false else decide (m.codecs ≠ codecs)
  { m with
    codecs := if m.codecs.length = 0 then codecs else m.codecs
    maxWidth := if m.maxWidth < width then width else m.maxWidth
    maxHeight := if m.maxHeight < height then height else m.maxHeight
    reprXml := m.reprXml ++ t! "\t\t\t<Representation id=\"" ++ decInt m.streamId ++ t! "_" ++ decInt bitRate
      ++ t! "\" frameRate=\"25\" sar=\"1:1\" startWithSAP=\"1\" bandwidth=\"" ++ decInt bitRate
      ++ (if addCodec then t! "\" codecs=\"" ++ codecs else [])
      ++ t! "\" width=\"" ++ decInt width ++ t! "\" height=\"" ++ decInt height ++ t! "\"/>\r\n"
    groupId := m.groupId + 1 }

/-- src/mg/media/mpd_renderer.h 209-241: `add_audio_bitrate`. -/
def Mpd.addAudio (m : Mpd) (bitRate samplingRate : Int) : Mpd :=
  { m with
    codecs := if m.codecs.length = 0 then t! "mp4a.40.2" else m.codecs
    reprXml := m.reprXml ++ t! "\t\t\t<Representation id=\"" ++ decInt m.streamId ++ t! "\" bandwidth=\"" ++ decInt bitRate
      ++ t! "\" audioSamplingRate=\"" ++ decInt samplingRate ++ t! "\"/>\r\n"
    groupId := m.groupId + 1 }

/-- One bitrate. -/
def Mpd.addBitrate (m : Mpd) : Bitrate → Mpd
  | .video b w h d => m.addVideo b w h d
  | .audio b r _ _ => m.addAudio b r

/-- src/mg/media/mpd_renderer.h 252-260 and 311-318: the element for the pending run of equal durations. -/
def Mpd.run (m : Mpd) : Str :=
  t! "\t\t\t\t<S d=\"" ++ dec m.lastDuration ++ (if 1 < m.lastCount then t! "\" r=\"" ++ dec (m.lastCount - 1) else []) ++ t! "\" />\r\n"

/-- src/mg/media/mpd_renderer.h 244-265: the first part of `add_point`, which writes the pending run. -/
def Mpd.flushRun (m : Mpd) (t d : Nat) : Mpd :=
  if m.lastDuration ≠ d ∨ t ≠ m.time ∨ 0 = m.time then
    if (t ≠ m.time ∨ m.lastDuration ≠ d) ∧ m.lastCount > 0 then
      { m with pointsXml := m.pointsXml ++ m.run, lastCount := 0, lastDuration := 0 }
    else m
  else m

/-- src/mg/media/mpd_renderer.h 242-294: `add_point`; the time is a `uint64_t`. -/
def Mpd.addPoint (m : Mpd) (t d : Nat) : Mpd :=
  let m := m.flushRun t d
  if t ≠ m.time then
    { m with
      pointsXml := m.pointsXml ++ t! "\t\t\t\t<S d=\"" ++ dec d ++ t! "\" t=\"" ++ dec t ++ t! "\" />\r\n"
      lastDuration := 0
      time := (t + d) % 2 ^ 64 }
  else
    { m with lastCount := m.lastCount + 1, lastDuration := d, time := (m.time + d) % 2 ^ 64 }

/-- src/mg/media/mpd_renderer.h 309-321: `end_stream`, its first part. -/
def Mpd.endPoints (m : Mpd) : Mpd :=
  if m.lastCount > 0 then { m with pointsXml := m.pointsXml ++ m.run, lastCount := 0 } else m

/-- src/mg/media/mpd_renderer.h 307-372: `end_stream`. -/
def Mpd.endStream (m : Mpd) : Mpd :=
  let m := m.endPoints
  let kind := if m.isVideo then t! "v" else t! "a"
  let s := m.streamXml ++ t! " codecs=\"" ++ m.codecs
    ++ (if m.isVideo then t! "\" maxWidth=\"" ++ decInt m.maxWidth ++ t! "\" maxHeight=\"" ++ decInt m.maxHeight else [])
    ++ t! "\" >" ++ t! "\r\n"
    ++ ((if m.isVideo then m.vProtection else m.aProtection).map fun p => p ++ t! "\r\n").flatten
    ++ t! "\t\t\t<SegmentTemplate timescale=\"10000000\" media=\"" ++ m.current ++ t! "_$Bandwidth$_$Time$.m4" ++ kind
    ++ t! "\" initialization=\"" ++ m.current ++ t! "_$Bandwidth$_i.m4" ++ kind ++ t! "\" >\r\n"
    ++ t! "\t\t\t<SegmentTimeline>\r\n" ++ m.pointsXml ++ t! "\t\t\t</SegmentTimeline>" ++ t! "\r\n\t\t\t</SegmentTemplate>\r\n"
    ++ m.reprXml ++ t! "\t\t</AdaptationSet>\r\n"
  { m with streamXml := s, xml := m.xml ++ s }

/-- src/mg/media/mpd_renderer.h 373-377: `end`. -/
def Mpd.finish (m : Mpd) : Mpd := { m with xml := m.xml ++ t! "\t</Period>\r\n</MPD>" }

/-- src/mg/media/mp4dynamicinfo.h 654-680: `DynamicStream::render` on a `MPDRenderer`. -/
def Mpd.stream (m : Mpd) (s : Stream) : Mpd :=
  (s.points.foldl (fun m p => m.addPoint p.1 p.2) (s.bitrates.foldl Mpd.addBitrate (m.beginStream s.name s.isVideo))).endStream

/-- src/mg/media/mp4dynamicinfo.h 936-948: `DynamicPresentation::render` on a `MPDRenderer`: the text of the document. `duration` is that of
the stream with id 0. -/
def mpdDocument (m : Mpd) (duration : Nat) (streams : List Stream) : Str :=
  (streams.foldl Mpd.stream (m.start duration)).finish.xml

/-! ### HLSRenderer -/

/-- src/mg/media/hls_renderer.h 41-64: the members (`_index`, `_has_audio` are not used). `bitRates` is `_bit_rate`, `m3u` the map
`_bit_rate_m3u` (later entries first). -/
structure Hls where
  root : Str := []
  body : Str := []
  bitRates : List Int := []
  m3u : List (Int × Str) := []
  audioCodec : Str := []
  beginStream : Bool := false
  videoPoints : Bool := false
  audioBitRate : Int := 96000
  pre : Str := t! "video"
  useName : Bool := true
  encrypted : Bool := false
  keyFile : Str := t! "hls3.key"

/-- src/mg/media/hls_renderer.h 90-96: `begin`. -/
def Hls.start (h : Hls) : Hls :=
  { h with audioCodec := h.audioCodec ++ t! "mp4a.40.2", root := h.root ++ t! "#EXTM3U\n" ++ t! "#EXT-X-VERSION:3\n" }

/-- src/mg/media/hls_renderer.h 98-111: `begin_stream`. -/
def Hls.begin (h : Hls) (name : Str) (isVideo : Bool) : Hls :=
  { h with
    beginStream := true
    videoPoints := isVideo
    pre := if isVideo && h.useName then name else h.pre }

/-- src/mg/media/hls_renderer.h 113-162: `add_video_bitrate`. -/
def Hls.addVideo (h : Hls) (bitRate width height : Int) (data : List UInt8) : Hls :=
  let file := h.pre ++ t! "_" ++ decInt bitRate ++ t! ".m3u8"
  { h with
    root := h.root ++ t! "#EXT-X-STREAM-INF:BANDWIDTH=" ++ decInt (bitRate + h.audioBitRate) ++ t! ",RESOLUTION=" ++ decInt width
      ++ t! "x" ++ decInt height ++ t! ",CODECS=\"" ++ videoCodec data ++ t! "," ++ h.audioCodec ++ t! "\"\n" ++ file ++ t! "\n"
    bitRates := h.bitRates ++ [bitRate]
    m3u := (bitRate, file) :: h.m3u }

/-- src/mg/media/hls_renderer.h 163-176: `add_audio_bitrate`. -/
def Hls.addAudio (h : Hls) (bitRate : Int) : Hls := { h with audioBitRate := bitRate }

/-- One bitrate. -/
def Hls.addBitrate (h : Hls) : Bitrate → Hls
  | .video b w hh d => h.addVideo b w hh d
  | .audio b _ _ _ => h.addAudio b

/-- src/mg/media/hls_renderer.h 182-204: the header of the playlist. -/
def Hls.header (h : Hls) (d : Nat) : Str :=
  t! "#EXTM3U\r\n" ++ t! "#EXT-X-VERSION:3\r\n" ++ t! "#EXT-X-ALLOW-CACHE:NO\r\n" ++ t! "#EXT-X-MEDIA-SEQUENCE:0\r\n"
    ++ t! "#EXT-X-TARGETDURATION:" ++ dec (d / 10000000) ++ t! "\r\n" ++ t! "#EXT-X-PROGRAM-DATE-TIME:1970-01-01T00:00:00Z\r\n"
    ++ (if h.encrypted then t! "#EXT-X-KEY:METHOD=AES-128,URI=\"" ++ h.keyFile ++ t! "\"\r\n" else [])

/-- src/mg/media/hls_renderer.h 206-219: the lines of a segment. -/
def Hls.segment (h : Hls) (t d : Nat) : Str :=
  t! "#EXTINF:" ++ durationText d ++ t! ",no-desc\r\n" ++ h.pre ++ t! "_" ++ t! "$(BITRATE)" ++ t! "_"
    ++ dec t ++ t! ".ts\r\n"

/-- src/mg/media/hls_renderer.h 177-220: `add_point`. -/
def Hls.addPoint (h : Hls) (t d : Nat) : Hls :=
  if h.videoPoints then
    let h := if h.beginStream then { h with beginStream := false, body := h.body ++ h.header d } else h
    { h with body := h.body ++ h.segment t d }
  else h

/-- src/mg/media/hls_renderer.h 237-244: `end`. -/
def Hls.finish (h : Hls) : Hls := if h.videoPoints then { h with body := h.body ++ t! "#EXT-X-ENDLIST\r\n" } else h

/-- src/mg/media/mp4dynamicinfo.h 654-680: `DynamicStream::render` on a `HLSRenderer`. -/
def Hls.stream (h : Hls) (s : Stream) : Hls :=
  s.points.foldl (fun h p => h.addPoint p.1 p.2) (s.bitrates.foldl Hls.addBitrate (h.begin s.name s.isVideo))

/-- src/mg/media/mp4dynamicinfo.h 936-948: `DynamicPresentation::render` on a `HLSRenderer`. -/
def hlsRender (h : Hls) (streams : List Stream) : Hls := (streams.foldl Hls.stream h.start).finish

/-- src/mg/media/hls_renderer.h 255-261 and 263-270: `bit_rate_body(idx)`, for the bitrate with that index. -/
def Hls.bitRateBody (h : Hls) (bitRate : Int) : Option Str := replace h.body (decInt bitRate) (t! "$(BITRATE)")

/-! ### Files -/

/-- src/mgcli/mp4info.cpp 5634-5647: the name of the file of a segment, below the output directory; the bitrate is a `uint64_t`. -/
def m4fName (s : Stream) (bitRate t : Nat) : Str :=
  s.name ++ t! "_" ++ dec bitRate ++ t! "_" ++ dec t ++ (if s.isVideo then t! ".m4v" else t! ".m4a")

/-- src/mgcli/mp4info.cpp 5574-5590: the name of the file of an initialization segment. -/
def initName (s : Stream) (bitRate : Nat) : Str :=
  s.name ++ t! "_" ++ dec bitRate ++ t! "_" ++ t! "i" ++ (if s.isVideo then t! ".m4v" else t! ".m4a")

/-- src/mg/media/hls_renderer.h 246-253: `bit_rate_count` and `bit_rate_name`: the names of the playlists, by index. -/
def Hls.names (h : Hls) : List Str := h.bitRates.map fun b => ((h.m3u.find? fun e => e.1 = b).map (·.2)).getD []

/-- src/mg/media/tsinfo.cpp 1015-1033: the name of the file of a video segment, below the output directory. -/
def tsName (bitRate t : Nat) : Str := t! "video_" ++ dec bitRate ++ t! "_" ++ dec t ++ t! ".ts"

/-- A bitrate as the `uint64_t` key of `DynamicStream`'s map of bitrates. -/
def Bitrate.key : Bitrate → Nat
  | .video b _ _ _ => b.toNat
  | .audio b _ _ _ => b.toNat

/-- src/mgcli/mp4info.cpp 5557-5647: the files written for a stream, in order (streams are taken in the order of their ids). -/
def streamFiles (s : Stream) : List Str :=
  (s.bitrates.map fun b => initName s b.key :: s.points.map fun p => m4fName s b.key p.1).flatten

end Verif.Render

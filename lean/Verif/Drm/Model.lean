import Verif.BitStream.Props
import Verif.Base64.Props
import Verif.Strings.Props
/-
Model of the DRM signalling of the fragmenter: the PlayReady, ClearKey and Widevine providers
(/repo/src/mgcli/cenc_provider.h), the `pssh` box they fill (/repo/src/mg/media/mp4/cenc.fl 287-357) and the code that prints such
a box (/repo/src/mgcli/mp4info.cpp 655-800).

Text is a list of characters, a block of memory a list of bytes. AES is a parameter: `aes key block` is the encrypted block.
`w` is `sizeof(wchar_t)` of the platform the program is built for (4 on Linux, 2 on Windows).
-/
namespace Verif.Drm
open Verif.BitStream (Byte Word Mem WState)

/-- cenc_provider.h 24-42: `kid_to_string`. -/
def kidToString (kid : List UInt8) : List Char :=
  let t := Verif.Strings.appendHex [] (kid.take 4)
  let t := t ++ ['-']
  let t := Verif.Strings.appendHex t ((kid.drop 4).take 2)
  let t := t ++ ['-']
  let t := Verif.Strings.appendHex t ((kid.drop 6).take 2)
  let t := t ++ ['-']
  let t := Verif.Strings.appendHex t ((kid.drop 8).take 2)
  let t := t ++ ['-']
  Verif.Strings.appendHex t ((kid.drop 10).take 6)

/-- cenc_provider.h 69-88: `binary_encode_kid`, four loops over the 16 bytes of the key id. -/
def binaryEncodeKid (kid : List UInt8) : List UInt8 :=
  [4, 3, 2, 1].map (fun j => kid.getD (j - 1) 0) ++
  [6, 5].map (fun j => kid.getD (j - 1) 0) ++
  [8, 7].map (fun j => kid.getD (j - 1) 0) ++
  [8, 9, 10, 11, 12, 13, 14, 15].map (fun j => kid.getD j 0)

/-- cenc_provider.h 147-203: `Base64`: one block, then the block end. The `flags` (padding, line breaks) are only used by the
Windows encoder; the text has `char` elements, all of them ASCII, which become wide characters one by one. -/
def base64 (b : List UInt8) (_flags : Nat := 0) : List Char :=
  (Verif.Base64.encodeAll [b]).map (fun c => Char.ofNat c.toNat)

/-- cenc_provider.h 93-111: `Checksum`, the first 8 bytes of the encrypted key id; without the AES library (`none`) it is empty. -/
def checksum (aes : Option (List UInt8 → List UInt8 → List UInt8)) (key kid : List UInt8) : List Char :=
  match aes with
  | some aes => base64 ((aes key kid).take 8)
  | none => []

/-- cenc_provider.h 226: the address used when the user gives none. -/
def defaultUrl : List Char :=
  "http://playready.directtaps.net/pr/svc/rightsmanager.asmx?PlayRight=1&amp;UseSimpleNonPersistentLicense=1".toList

/-- cenc_provider.h 223-226: `_url`. -/
def theUrl (url : Option (List Char)) : List Char :=
  match url with
  | some u => u
  | none => defaultUrl

/-- cenc_provider.h 229-230: the start of `_wmheader`. -/
def headA : List Char :=
  ("<WRMHEADER xmlns=\"http://schemas.microsoft.com/DRM/2007/03/PlayReadyHeader\" version=\"4.0.0.0\">" ++
   "<DATA><PROTECTINFO><KEYLEN>16</KEYLEN><ALGID>AESCTR</ALGID></PROTECTINFO><KID>").toList

/-- cenc_provider.h 235. -/
def headB : List Char := "</KID><CHECKSUM>".toList

/-- cenc_provider.h 240. -/
def headC : List Char := "</CHECKSUM><LA_URL>".toList

/-- cenc_provider.h 242. -/
def headD : List Char :=
  "</LA_URL><CUSTOMATTRIBUTES><IIS_DRM_VERSION>7.1.1565.4</IIS_DRM_VERSION></CUSTOMATTRIBUTES></DATA></WRMHEADER>".toList

/-- cenc_provider.h 229-242: `_wmheader`. -/
def wmHeader (aes : Option (List UInt8 → List UInt8 → List UInt8)) (key kid : List UInt8) (url : Option (List Char)) :
    List Char :=
  headA ++ base64 (binaryEncodeKid kid) ++ headB ++ checksum aes key (binaryEncodeKid kid) ++ headC ++ theUrl url ++ headD

/-- cenc_provider.h 244, 269-280: the `little_putbits` calls for a header text, value and width. `size` is a `uint32_t`. -/
def bodyCalls (w : Nat) (header : List Char) : List (Word × Nat) :=
  [(BitVec.ofNat 32 (10 + w * header.length), 32), (1, 16), (1, 16), (BitVec.ofNat 32 (w * header.length), 16)] ++
  header.map (fun c => (BitVec.ofNat 32 c.toNat, 16))

/-- A sequence of `little_putbits` calls. -/
def runLittle (s : WState) : List (Word × Nat) → Option WState
  | [] => some s
  | (v, n) :: cs => (Verif.BitStream.littlePutbits s v n).bind fun s => runLittle s cs

/-- cenc_provider.h 269-284: `_body` after the constructor: the calls on a fresh stream, then `flush`; `none` would be undefined
behaviour. The assertion at line 284 is not compiled in a release build. -/
def proBody (beyond : Mem) (w : Nat) (header : List Char) : Option (List UInt8) :=
  (runLittle (Verif.BitStream.wInit 1024 beyond) (bodyCalls w header)).map
    fun s => (Verif.BitStream.flush s).out.map UInt8.ofBitVec

/-- cenc.fl 287-357 and mp4.fl 170-183: `ProtectionSystemSpecificHeaderBox`. The 16 members `KID`..`KID_15` hold one key id only. -/
structure Pssh where
  version : Nat
  flags : Nat
  systemId : List UInt8
  kidCount : Nat
  kid : List UInt8
  data : List UInt8
deriving DecidableEq, Repr

/-- A 32 bit number, most significant byte first. -/
def be32 (n : Nat) : List UInt8 :=
  [UInt8.ofNat (n / 2 ^ 24), UInt8.ofNat (n / 2 ^ 16), UInt8.ofNat (n / 2 ^ 8), UInt8.ofNat n]

/-- cenc.fl 298-356: `put` of the box. The loop over `KID_count` writes the same 16 members each time. -/
def Pssh.put (p : Pssh) : List UInt8 :=
  [UInt8.ofNat p.version, UInt8.ofNat (p.flags / 2 ^ 16), UInt8.ofNat (p.flags / 2 ^ 8), UInt8.ofNat p.flags] ++
  p.systemId ++
  (if p.version > 0 then be32 p.kidCount ++ (List.replicate p.kidCount p.kid).flatten else []) ++
  be32 p.data.length ++ p.data

/-- `n` bytes from the stream; `none` when there are fewer (the bit stream throws). -/
def takeBytes (n : Nat) (bs : List UInt8) : Option (List UInt8 × List UInt8) :=
  if bs.length < n then none else some (bs.take n, bs.drop n)

/-- The number in some bytes, most significant first. -/
def beVal (bs : List UInt8) : Nat := bs.foldl (fun a b => a * 256 + b.toNat) 0

/-- cenc.fl 321-340: the loop of `get` over the key ids: each round overwrites the 16 members. -/
def getKids : Nat → List UInt8 → List UInt8 → Option (List UInt8 × List UInt8)
  | 0, kid, bs => some (kid, bs)
  | n + 1, _, bs => (takeBytes 16 bs).bind fun r => getKids n r.1 r.2

/-- cenc.fl 298-356: `get` of the box. Members that are not in the stream keep their value; the model starts with zeros. -/
def Pssh.get (bs : List UInt8) : Option Pssh :=
  (takeBytes 1 bs).bind fun v =>
  (takeBytes 3 v.2).bind fun f =>
  (takeBytes 16 f.2).bind fun sy =>
  (if beVal v.1 > 0 then (takeBytes 4 sy.2).bind fun c =>
      (getKids (beVal c.1) (List.replicate 16 0) c.2).map fun k => (beVal c.1, k.1, k.2)
   else some (0, List.replicate 16 0, sy.2)).bind fun k =>
  (takeBytes 4 k.2.2).bind fun d =>
  (takeBytes (beVal d.1) d.2).bind fun b =>
  some ⟨beVal v.1, beVal f.1, sy.1, k.1, k.2.1, b.1⟩

/-- mp4write.h 124-149: `open_box(box_pssh)`, `write_box`, `close_box` (cenc_provider.h 390-394, mp4info.cpp 5454-5458). -/
def psshBox (p : Pssh) : List UInt8 :=
  be32 (8 + p.put.length) ++ [0x70, 0x73, 0x73, 0x68] ++ p.put

/-- cenc_provider.h 215. -/
def playReadyId : List UInt8 :=
  [0x9A, 0x04, 0xF0, 0x79, 0x98, 0x40, 0x42, 0x86, 0xAB, 0x92, 0xE6, 0x5B, 0xE0, 0x88, 0x5F, 0x95]

/-- cenc_provider.h 347-364. -/
def clearKeyId : List UInt8 :=
  [0x10, 0x77, 0xEF, 0xEC, 0xC0, 0xB2, 0x4D, 0x02, 0xAC, 0xE3, 0x3C, 0x1E, 0x52, 0xE2, 0xFB, 0x4B]

/-- cenc_provider.h 476-493. -/
def widevineId : List UInt8 :=
  [0xED, 0xEF, 0x8B, 0xA9, 0x79, 0xD6, 0x4A, 0xCE, 0xA3, 0xC8, 0x27, 0xDC, 0xD5, 0x1D, 0x21, 0xED]

/-- cenc_provider.h 288-308: `PlayReadyCencProvider::add_pssh`. -/
def playReadyPssh (body : List UInt8) : Pssh := ⟨0, 0, playReadyId, 0, List.replicate 16 0, body⟩

/-- cenc_provider.h 316-322: the text before the key id. -/
def prA : List Char :=
  "<ContentProtection schemeIdUri=\"urn:mpeg:dash:mp4protection:2011\" value=\"cenc\" cenc:default_KID=\"".toList

/-- cenc_provider.h 321-322: the text between the two places of the key id. -/
def prB : List Char :=
  ("\"/>" ++
   "<ContentProtection schemeIdUri=\"urn:uuid:9a04f079-9840-4286-ab92-e65be0885f95\" value=\"2.0\" cenc:default_KID=\"").toList

/-- cenc_provider.h 326-327. -/
def prC : List Char := ("\">" ++ "<mspr:pro>").toList

/-- cenc_provider.h 332-333. -/
def prD : List Char := ("</mspr:pro>" ++ "</ContentProtection>").toList

/-- cenc_provider.h 310-337: `PlayReadyCencProvider::add_ContentProtection`. -/
def playReadyXml (kid body : List UInt8) : List Char :=
  prA ++ kidToString kid ++ prB ++ kidToString kid ++ prC ++ base64 body ++ prD

/-- cenc_provider.h 345-375: `ClearKeyCencProvider::fill_pssh`. -/
def clearKeyPssh (kid : List UInt8) : Pssh := ⟨1, 0, clearKeyId, 1, kid, []⟩

/-- cenc_provider.h 431-432. -/
def ckA : List Char :=
  ("<ContentProtection schemeIdUri=\"urn:uuid:1077efec-c0b2-4d02-ace3-3c1e52e2fb4b\">" ++ "<cenc:pssh>").toList

/-- cenc_provider.h 438-439, 588-589. -/
def psshEnd : List Char := ("</cenc:pssh>" ++ "</ContentProtection>").toList

/-- cenc_provider.h 429-442: `ClearKeyCencProvider::add_ContentProtection`; the stream `_bit_stream` was filled by the constructor
(378-400) with the same box `add_pssh` gives to the file. -/
def clearKeyXml (kid : List UInt8) : List Char := ckA ++ base64 (psshBox (clearKeyPssh kid)) ++ psshEnd

/-- cenc_provider.h 446. -/
def jsonA : List Char := "{ \"keys\":[{\"kid\" : \"".toList

/-- cenc_provider.h 448. -/
def jsonB : List Char := "\" , \"k\" : \"".toList

/-- cenc_provider.h 450. -/
def jsonC : List Char := "\"}]}".toList

/-- cenc_provider.h 444-453: `json_key`; `ATL_BASE64_FLAG_NOPAD` is 0 (mgcli/stdafx.h 65). -/
def jsonKey (kid key : List UInt8) : List Char := jsonA ++ base64 kid 0 ++ jsonB ++ base64 key 0 ++ jsonC

/-- cenc_provider.h 499-513: the decoded `-widevinebody`; `none`: the decoder read outside of its table. -/
def widevineBody (text : List UInt8) : Option (List UInt8) := Verif.Base64.decodeAll [text]

/-- cenc_provider.h 518-530: `WidevineBoyProvider::fill`. -/
def widevinePssh (body : List UInt8) : Pssh := ⟨0, 0, widevineId, 0, List.replicate 16 0, body⟩

/-- cenc_provider.h 548, 582. -/
def wvA : List Char :=
  ("<ContentProtection value=\"Widevine\" schemeIdUri=\"urn:uuid:edef8ba9-79d6-4ace-a3c8-27dcd51d21ed\" >" ++ "<cenc:pssh>").toList

/-- cenc_provider.h 542-592: `WidevineBoyProvider::add_ContentProtection`. -/
def widevineXml (body : List UInt8) : List Char := wvA ++ base64 (psshBox (widevinePssh body)) ++ psshEnd

/-- mp4info.cpp 5448-5466: the `pssh` boxes of all providers, one after the other, in the order of the vector. -/
def psshBoxes (ps : List Pssh) : List UInt8 := ps.flatMap psshBox

/-- The number in some bytes, least significant first (`little_getbits`, bitstream.h 645-663). -/
def leVal : List UInt8 → Nat
  | [] => 0
  | b :: bs => b.toNat + 256 * leVal bs

/-- mp4info.cpp 736: `n` wide characters of `w` bytes at `_p_data + off`; `none` when they lie outside of the data. -/
def wideAt (w : Nat) (data : List UInt8) (off n : Nat) : Option (List Nat) :=
  if off + w * n > data.length then none
  else some ((List.range n).map fun i => leVal ((data.drop (off + w * i)).take w))

/-- mp4info.cpp 714-768: the loop over the records of the PlayReady object. `pos` is the position of the bit stream, `tot` the
16 bit counter that is used to find the text: it grows by the 4 bytes of each record header, never by the record itself. The result
is the list of kinds with the text printed for kind 1. -/
def dumpRecords (w : Nat) (data : List UInt8) : Nat → Nat → Nat → Option (List (Nat × List Nat))
  | 0, _, _ => some []
  | n + 1, pos, tot =>
    (takeBytes 2 (data.drop pos)).bind fun k =>
    (takeBytes 2 (data.drop (pos + 2))).bind fun s =>
    let tot := (tot + 4) % 65536
    (if leVal k.1 = 1 then wideAt w data tot (leVal s.1 / 2) else some []).bind fun t =>
    (dumpRecords w data n (pos + 4 + leVal s.1) tot).map fun r => (leVal k.1, t) :: r

/-- mp4info.cpp 694-770: printing of a PlayReady object: the size (only asserted), the number of records, the records. -/
def dumpPro (w : Nat) (data : List UInt8) : Option (List (Nat × List Nat)) :=
  (takeBytes 4 data).bind fun _ => (takeBytes 2 (data.drop 4)).bind fun c => dumpRecords w data (leVal c.1) 6 6

end Verif.Drm

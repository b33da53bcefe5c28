import Verif.Cenc.Spec

/-
Model of the encryption of HLS segments: `HLSRenderer::hls3_encrypt_buffer` (src/mg/media/hls_renderer.h), `hls_encrypt` and the numbering
of the segments in `do_hls_mux` (src/mg/media/tsinfo.cpp). The AES library is a parameter: any function on blocks of 16 bytes. Its
`aes_cbc_encrypt(in, out, len, iv, ctx)` is modelled from its documentation: it chains from `iv` and leaves the last encrypted block in
`iv`. File input and output are modelled as reading and replacing the whole content.
-/
namespace Verif.HlsCrypt

/-- Exclusive or of two blocks. -/
def xorBlock (a b : List UInt8) : List UInt8 := List.zipWith (· ^^^ ·) a b

/-- The library's `aes_cbc_encrypt` on `n` blocks: the output and the updated `iv`. -/
def aesCbcEncrypt (E : List UInt8 → List UInt8) : (n : Nat) → (iv data : List UInt8) → List UInt8 × List UInt8
  | 0, iv, _ => ([], iv)
  | n + 1, iv, data =>
    let c := E (xorBlock iv (data.take 16))
    let (out, iv') := aesCbcEncrypt E n c (data.drop 16)
    (c ++ out, iv')

/-- src/mg/media/hls_renderer.h 36: `ENC_MISSING_SIZE`. -/
def encMissing (s : Nat) : Nat := 16 - s % 16

/-- src/mg/media/hls_renderer.h 37: `ENC_SIZE`. -/
def encSize (s : Nat) : Nat := s + encMissing s

/-- Result of `hls3_encrypt_buffer`: an error, the size asked for, or success with the size and the content of the destination. -/
inductive Result
  | invalidArg
  | sizeQuery (size : Nat)
  | invalidInput
  | ok (size : Nat) (dest : List UInt8)

/-- Writes bytes into a buffer at a position. -/
def poke (buf : List UInt8) (at' : Nat) (data : List UInt8) : List UInt8 :=
  buf.take at' ++ data ++ buf.drop (at' + data.length)

/-- src/mg/media/hls_renderer.h 286-391: `hls3_encrypt_buffer`. `dest` is the destination buffer before the call, `destSize` the value
of `*pdest_size`, `sequence` the value of the `int` argument. The size of the full blocks is cut to 32 bits by the cast in line 372. -/
def encryptBuffer (E : List UInt8 → List UInt8) (dest : List UInt8) (destSize : Nat) (clear : List UInt8) (sequence : Int) : Result :=
  if clear.length = 0 then .invalidArg
  else if destSize = 0 then .sizeQuery (encSize clear.length)
  else if encSize clear.length > destSize then .invalidInput
  else
    let missing := encMissing clear.length
    let fullBlock := clear.length / 16 * 16
    let last := poke (List.replicate 16 (UInt8.ofNat missing)) 0 ((clear.drop fullBlock).take (16 - missing))
    let sn := sequence
    let iv := List.replicate 12 0 ++
      [UInt8.ofNat ((sn / 2 ^ 24) % 256).toNat, UInt8.ofNat ((sn / 2 ^ 16) % 256).toNat,
       UInt8.ofNat ((sn / 2 ^ 8) % 256).toNat, UInt8.ofNat (sn % 256).toNat]
    let (out1, iv) := aesCbcEncrypt E (fullBlock % 2 ^ 32 / 16) iv clear
    let dest := poke dest 0 out1
    let (out2, _) := aesCbcEncrypt E 1 iv last
    let dest := poke dest fullBlock out2
    .ok (encSize clear.length) dest

/-- src/mg/media/tsinfo.cpp 594-635: `hls_encrypt`, which replaces the content of a file; `none` for the return value 7. The
destination buffer is what `new CBuffer` gives (`dest`, as long as the encrypted size). -/
def encryptFile (E : List UInt8 → List UInt8) (dest content : List UInt8) (sequence : Int) : Option (List UInt8) :=
  match encryptBuffer E dest (encSize content.length) content sequence with
  | .ok size out => some (out.take size)
  | .sizeQuery size => some (dest.take size)
  | .invalidArg => none
  | .invalidInput => none

/-- src/mg/media/tsinfo.cpp 986, 1066 and 1135-1138: the sequence number passed to `hls_encrypt` for segment number `k` (from 0) of a
bitrate: an `unsigned char` that starts at 0 and is incremented (by `set_section_continuity(sequence++)`) before it is used. -/
def segmentSequence : (k : Nat) → Nat
  | 0 => 1
  | k + 1 => (segmentSequence k + 1) % 256

/-- src/mg/media/hls_renderer.h 189: `#EXT-X-MEDIA-SEQUENCE:0`: the media sequence number the playlist gives to segment `k`. -/
def mediaSequence (k : Nat) : Nat := 0 + k

end Verif.HlsCrypt

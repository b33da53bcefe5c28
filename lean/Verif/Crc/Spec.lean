/-
CRC-32/MPEG-2 (ISO/IEC 13818-1 Annex A): polynomial x^32+x^26+...+1 = 0x04C11DB7, start value all ones, bits most
significant first, no reflection, no final inversion; written as the shift register of the standard, bit by bit.
-/
namespace Verif.Crc.Spec

/-- One clock of the shift register with the data bit `b`. -/
def clock (r : BitVec 32) (b : Bool) : BitVec 32 :=
  if r.msb ^^ b then (r <<< 1) ^^^ 0x04C11DB7#32 else r <<< 1

/-- The bits of a byte, most significant first. -/
def byteBits (b : BitVec 8) : List Bool := [b[7], b[6], b[5], b[4], b[3], b[2], b[1], b[0]]

/-- The register after the bytes. -/
def mpegCrc (bytes : List (BitVec 8)) : BitVec 32 := (bytes.flatMap byteBits).foldl clock 0xFFFFFFFF#32

/-- The four bytes of a word, most significant first. -/
def bigEndian (w : BitVec 32) : List (BitVec 8) :=
  [(w >>> 24).truncate 8, (w >>> 16).truncate 8, (w >>> 8).truncate 8, w.truncate 8]

end Verif.Crc.Spec

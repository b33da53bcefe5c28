/-
Model of the CRC used for program tables: `CWinCrc` (/repo/src/mg/media/wincrc.cpp, wincrc.h), the table AV_CRC_32_IEEE
(le = 0, bits = 32, poly = 0x04C11DB7) with 1024 entries. `unsigned int` is 32 bits wide.
-/
namespace Verif.Crc

abbrev Word := BitVec 32

/-- `AV_BSWAP32C`, wincrc.h 29. -/
def bswap (x : Word) : Word :=
  ((((x <<< 8) &&& 0xff00#32) ||| ((x >>> 8) &&& 0x00ff#32)) <<< 16) |||
    ((((x >>> 16) <<< 8) &&& 0xff00#32) ||| (((x >>> 16) >>> 8) &&& 0x00ff#32))

/-- One step of the inner loop, wincrc.cpp 35-36 (big endian branch; `poly << (32 - bits)` with bits = 32). -/
def polyStep (c : Word) : Word := (c <<< 1) ^^^ (0x04C11DB7#32 &&& c.sshiftRight 31)

/-- The inner loop, `j = 0..7`. -/
def polyStep8 (c : Word) : Word :=
  polyStep (polyStep (polyStep (polyStep (polyStep (polyStep (polyStep (polyStep c)))))))

/-- `ctx[i]` for i < 256, wincrc.cpp 28-38; the index is the byte. -/
def table (i : Word) : Word := bswap (polyStep8 (i <<< 24))

/-- `ctx[256 * j + i]`, wincrc.cpp 40-46 (ctx_size is 4096: the sliced tables are built, and ctx[256], set to 1 before,
is overwritten with a value that is 0, so that the four byte path of `av_crc` is used). -/
def sliced : Nat → Word → Word
  | 0, i => table i
  | j + 1, i => (sliced j i >>> 8) ^^^ table (sliced j i &&& 0xFF#32)

/-- The byte at a time update, wincrc.cpp 74 and 86. -/
def byteStep (crc : Word) (b : BitVec 8) : Word := table (crc.truncate 8 ^^^ b |>.zeroExtend 32) ^^^ (crc >>> 8)

/-- A little endian load of four bytes, wincrc.cpp 77 (`*(const unsigned int*) buffer` on the supported machines). -/
def load32 (a b c d : BitVec 8) : Word :=
  a.zeroExtend 32 ||| (b.zeroExtend 32 <<< 8) ||| (c.zeroExtend 32 <<< 16) ||| (d.zeroExtend 32 <<< 24)

/-- The four byte update, wincrc.cpp 77-81. -/
def wordStep (crc : Word) (w : Word) : Word :=
  let crc := crc ^^^ w
  sliced 3 (crc &&& 0xFF#32) ^^^ sliced 2 ((crc >>> 8) &&& 0xFF#32) ^^^ sliced 1 ((crc >>> 16) &&& 0xFF#32) ^^^
    sliced 0 (crc >>> 24)

/-- The four byte loop `while (buffer < end - 3)` and the tail, wincrc.cpp 76-86. -/
def avCrcAligned (crc : Word) : List (BitVec 8) → Word
  | a :: b :: c :: d :: rest => avCrcAligned (wordStep crc (load32 a b c d)) rest
  | l => l.foldl byteStep crc

/-- The alignment loop `while ((buffer & 3) && buffer < end)`, wincrc.cpp 73-74. -/
def avCrcHead (addr : Nat) (crc : Word) : List (BitVec 8) → Word
  | [] => avCrcAligned crc []
  | b :: rest => if addr % 4 = 0 then avCrcAligned crc (b :: rest) else avCrcHead (addr + 1) (byteStep crc b) rest

/-- `av_crc`, wincrc.cpp 66-89; `addr` is the address of the buffer. `ctx[256]` is read from the table as built. -/
def avCrc (addr : Nat) (crc : Word) (buffer : List (BitVec 8)) : Word :=
  if sliced 1 0 = 0 then avCrcHead addr crc buffer else buffer.foldl byteStep crc

/-- `CWinCrc::crc_32`, wincrc.cpp 115-118, with the default start value -1 (wincrc.h 56). -/
def crc32 (addr : Nat) (buffer : List (BitVec 8)) : Word := bswap (avCrc addr (-1) buffer)

end Verif.Crc

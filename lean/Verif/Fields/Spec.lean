/-
Bit fields of a byte string, most significant bit first: the notation in which transport stream, PES, descriptor and
ADTS syntax tables are written. Used to state what a byte string says (specifications), and, through `pack`, to write
down the sequence of `putbits` calls of the generated `put` functions (C05 shows that those calls produce these bytes).
-/
namespace Verif.Fields

/-- The `n` low bits of `v`, most significant first. -/
def natBits : (v n : Nat) → List Bool
  | _, 0 => []
  | v, n + 1 => natBits (v / 2) n ++ [v % 2 == 1]

/-- The number a bit string denotes. -/
def bitsNat (bs : List Bool) : Nat := bs.foldl (fun a b => 2 * a + b.toNat) 0

/-- The bits of a byte string. -/
def bitsOf (bs : List UInt8) : List Bool := bs.flatMap (fun b => natBits b.toNat 8)

/-- Groups of eight bits as bytes (an incomplete last group is dropped). -/
def bytesOfBits : List Bool → List UInt8
  | a :: b :: c :: d :: e :: f :: g :: h :: rest =>
    UInt8.ofNat (bitsNat [a, b, c, d, e, f, g, h]) :: bytesOfBits rest
  | _ => []

/-- The bits written by `putbits(value, width)` calls. -/
def putBits (fs : List (Nat × Nat)) : List Bool := fs.flatMap (fun f => natBits f.2 f.1)

/-- The bytes written by `putbits` calls with (width, value). -/
def pack (fs : List (Nat × Nat)) : List UInt8 := bytesOfBits (putBits fs)

/-- Reads fields of the given widths. -/
def readBits : List Nat → List Bool → Option (List Nat)
  | [], _ => some []
  | w :: ws, bs => if w ≤ bs.length then (readBits ws (bs.drop w)).map (bitsNat (bs.take w) :: ·) else none

/-- The values of consecutive fields at the start of a byte string. -/
def read (ws : List Nat) (bytes : List UInt8) : Option (List Nat) := readBits ws (bitsOf bytes)

end Verif.Fields

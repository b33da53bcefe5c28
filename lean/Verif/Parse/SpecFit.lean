import Verif.Cenc.Spec
import Verif.Fragment.Model
/-
When a file can be read to its end: a condition on the numbers in the file alone.
-/
namespace Verif.Parse
open Verif.Cenc.Spec (beVal)
open Verif.Fragment (fourcc)

/-! ### When the reading ends: specification -/

/-- The big endian number in the `n` bytes at `p`. -/
def field (file : List UInt8) (p n : Nat) : Nat := beVal ((file.drop p).take n)

/-- The type that a box at `p` has. -/
def typeAt (file : List UInt8) (p : Nat) : Nat := field file (p + 4) 4

/-- The size that a box at `p` has: 32 bits, or 64 after a 1; the identifier of a uuid box not counted. -/
def sizeAt (file : List UInt8) (p : Nat) : Nat :=
  let s := if field file p 4 = 1 then field file (p + 8) 8 else field file p 4
  if typeAt file p = fourcc 'u' 'u' 'i' 'd' then (s + 2 ^ 64 - 16) % 2 ^ 64 else s

/-- Where a box at `p` ends, in 64 bits. -/
def endAt (file : List UInt8) (p : Nat) : Nat := (p + sizeAt file p) % 2 ^ 64

/-- Where the boxes in a sample description box at `q` begin: behind its size, type, version, flags and count. -/
def descriptions (file : List UInt8) (q : Nat) : Nat := if field file q 4 = 1 then q + 24 else q + 16

/-- A file whose boxes fit, as far as the reader depends on it: where the type mdat or free is, the box ends behind its begin (or behind the file); where the type trak or minf is, the box ends in the file; where the type stsd is, the
first description of samples ends in the file, and if there are more, everything behind that could be one. -/
structure Fits (file : List UInt8) : Prop where
  jumps : ∀ p < file.length, typeAt file p = fourcc 'm' 'd' 'a' 't' ∨ typeAt file p = fourcc 'f' 'r' 'e' 'e' → p < endAt file p
  holders : ∀ p < file.length, typeAt file p = fourcc 't' 'r' 'a' 'k' ∨ typeAt file p = fourcc 'm' 'i' 'n' 'f' → endAt file p ≤ file.length
  first : ∀ q < file.length, typeAt file q = fourcc 's' 't' 's' 'd' → endAt file (descriptions file q) ≤ file.length
  others : ∀ q < file.length, typeAt file q = fourcc 's' 't' 's' 'd' → 1 < field file (descriptions file q - 4) 4 → ∀ p < file.length, descriptions file q < p →
    endAt file p ≤ file.length

end Verif.Parse

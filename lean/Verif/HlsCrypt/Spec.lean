import Verif.Cenc.Spec

/-
HLS with METHOD=AES-128 as a player sees it (RFC 8216, 4.3.2.4 and 5.2): AES in cipher block chaining mode with PKCS7 padding; without
an IV attribute the initialisation vector is the media sequence number of the segment as a 128 bit big-endian number.
-/
namespace Verif.HlsCrypt.Spec
open Verif.Cenc.Spec (be)

/-- Byte-wise exclusive or. -/
def xor (a b : List UInt8) : List UInt8 := List.zipWith (· ^^^ ·) a b

/-- CBC decryption of a list of blocks: every decrypted block is xored with the encrypted block before it. -/
def cbcDecrypt (D : List UInt8 → List UInt8) : (prev : List UInt8) → List (List UInt8) → List (List UInt8)
  | _, [] => []
  | prev, c :: cs => xor (D c) prev :: cbcDecrypt D c cs

/-- The blocks of 16 bytes of a text of `16 * n` bytes. -/
def blocks : (n : Nat) → List UInt8 → List (List UInt8)
  | 0, _ => []
  | n + 1, l => l.take 16 :: blocks n (l.drop 16)

/-- Removing PKCS7 padding: the last byte tells the number of padding bytes, 1 to 16, which all have this value. -/
def unpad (l : List UInt8) : Option (List UInt8) :=
  match l.getLast? with
  | none => none
  | some n =>
    if 1 ≤ n.toNat ∧ n.toNat ≤ 16 ∧ n.toNat ≤ l.length ∧ l.drop (l.length - n.toNat) = List.replicate n.toNat n
    then some (l.take (l.length - n.toNat)) else none

/-- What a player does with an encrypted segment. -/
def decrypt (D : List UInt8 → List UInt8) (iv : List UInt8) (data : List UInt8) : Option (List UInt8) :=
  if data.length % 16 = 0 then unpad (cbcDecrypt D iv (blocks (data.length / 16) data)).flatten else none

/-- Initialisation vector of the segment with a media sequence number. -/
def iv (sequence : Nat) : List UInt8 := be 16 sequence

/-- A block cipher: encryption of 16 byte blocks, undone by decryption. -/
structure Cipher (E D : List UInt8 → List UInt8) : Prop where
  length : ∀ b, b.length = 16 → (E b).length = 16
  inverse : ∀ b, b.length = 16 → D (E b) = b

end Verif.HlsCrypt.Spec

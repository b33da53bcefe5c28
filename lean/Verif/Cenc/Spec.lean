/-
Common encryption (ISO/IEC 23001-7, scheme 'cenc') as a player sees it: a sample comes with an eight byte initialisation vector and
a list of (clear, protected) byte counts; the protected bytes are decrypted with AES in counter mode, the counter block being the
vector followed by a 64 bit big-endian block counter that starts at 0.
-/
namespace Verif.Cenc.Spec

/-- Big-endian value of bytes. -/
def beVal (l : List UInt8) : Nat := l.foldl (fun n b => n * 256 + b.toNat) 0

/-- Big-endian bytes of a number. -/
def be : (len : Nat) → Nat → List UInt8
  | 0, _ => []
  | k + 1, n => be k (n / 256) ++ [UInt8.ofNat n]

/-- Counter block number `j` of a sample. -/
def block (iv : List UInt8) (j : Nat) : List UInt8 := iv ++ be 8 j

/-- Counter mode on the protected bytes of a sample, byte by byte: byte `k` uses byte `k % 16` of the encrypted block `k / 16`. -/
def ctr (E : List UInt8 → List UInt8) (iv : List UInt8) (data : List UInt8) : List UInt8 :=
  data.mapIdx fun k b => b ^^^ (E (block iv (k / 16))).getD (k % 16) 0

/-- The protected bytes of a sample (with the given ranges), in order. -/
def protectedBytes : List (Nat × Nat) → List UInt8 → List UInt8
  | [], _ => []
  | (c, p) :: rs, data => (data.drop c).take p ++ protectedBytes rs (data.drop (c + p))

/-- Puts other bytes at the place of the protected ones. -/
def replaceProtected : List (Nat × Nat) → (sample new : List UInt8) → List UInt8
  | [], data, _ => data
  | (c, p) :: rs, data, new => data.take c ++ new.take p ++ replaceProtected rs (data.drop (c + p)) (new.drop p)

/-- What a player does with a sample. -/
def decrypt (E : List UInt8 → List UInt8) (iv : List UInt8) (ranges : List (Nat × Nat)) (sample : List UInt8) : List UInt8 :=
  replaceProtected ranges sample (ctr E iv (protectedBytes ranges sample))

end Verif.Cenc.Spec

/-
Independent specification of base64: RFC 4648, section 4, written on numbers (groups of 24 bits).
-/
namespace Verif.Base64.Spec

/-- The RFC 4648 alphabet, table 1. -/
def alphabet : List Char := "ABCDEFGHIJKLMNOPQRSTUVWXYZabcdefghijklmnopqrstuvwxyz0123456789+/".toList

/-- Code of the character for the 6 bit value `n`. -/
def sym (n : Nat) : UInt8 := UInt8.ofNat (alphabet.getD n '=').toNat

/-- '=' -/
def pad : UInt8 := 61

/-- RFC 4648 encoding: 24 bit groups, final group padded. -/
def rfc4648 : List UInt8 → List UInt8
  | [] => []
  | [a] => let n := a.toNat * 65536
           [sym (n / 262144), sym (n / 4096 % 64), pad, pad]
  | [a, b] => let n := a.toNat * 65536 + b.toNat * 256
              [sym (n / 262144), sym (n / 4096 % 64), sym (n / 64 % 64), pad]
  | a :: b :: c :: rest =>
    let n := a.toNat * 65536 + b.toNat * 256 + c.toNat
    [sym (n / 262144), sym (n / 4096 % 64), sym (n / 64 % 64), sym (n % 64)] ++ rfc4648 rest

/-- Is this character one of the 64 symbols? -/
def isSym (c : UInt8) : Bool := alphabet.any (fun x => UInt8.ofNat x.toNat == c)

end Verif.Base64.Spec

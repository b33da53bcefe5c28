import Verif.FileReader.Model
import Verif.BitStream.Spec

/-
Specification of reading a file: what was read is, as a bit string, the beginning of the file.
-/
namespace Verif.FileReader.Spec
open Verif.BitStream.Spec (fieldBits bytesBits)

/-- The bits of what a call gave. -/
def outBits : Out → List Bool
  | .word n x => fieldBits x n
  | .data d => bytesBits d

/-- Fields of 1 to 32 bits; bytes are asked for at byte boundaries (`t` bits have been asked for so far). -/
def ok (t : Nat) : List Op → Prop
  | [] => True
  | .bits n :: ops => 1 ≤ n ∧ n ≤ 32 ∧ ok (t + n) ops
  | .bytes n :: ops => t % 8 = 0 ∧ ok (t + 8 * n) ops

/-- How many bits are asked for. -/
def asked : List Op → Nat
  | [] => 0
  | .bits n :: ops => n + asked ops
  | .bytes n :: ops => 8 * n + asked ops

/-- A field is a number of its width. -/
def inWidth : Out → Prop
  | .word n x => x.toNat < 2 ^ n
  | .data _ => True

/-- What is given is what was asked for: a field of its width, or that many bytes. -/
def answers : Op → Out → Prop
  | .bits n, .word m _ => m = n
  | .bytes n, .data d => d.length = n
  | _, _ => False

/-- Fields of 1 to 32 bits none of which lies across a page boundary (multiples of `size` bytes); `t` bits come before them. -/
def inPages (size : Nat) (t : Nat) : List Nat → Prop
  | [] => True
  | n :: ns => 1 ≤ n ∧ n ≤ 32 ∧ t / (8 * size) = (t + n - 1) / (8 * size) ∧ inPages size (t + n) ns

/-- The answer to a read is always there in time: synchronous files, and asynchronous ones when the disk is faster than the program. -/
def Punctual (kind : Kind) (sched : Nat → Bool) : Prop := kind = .sync ∨ ∀ i, sched i = true

end Verif.FileReader.Spec

import Verif.FileReader.SeekModel
import Verif.FileReader.Spec

/-
Specification of moving in a file: a program has a position (in bits), every call changes it in a fixed way, and what is read is what the file has there.
-/
namespace Verif.FileReader.Spec
open Verif.BitStream (Byte)
open Verif.BitStream.Spec (bytesBits)

/-- The position after a call. -/
def after (t : Nat) : Call → Nat
  | .bits n => t + n
  | .bytes n => t + 8 * n
  | .seek p => 8 * p
  | .skip n => t + n
  | .skipBytes n => t + 8 * n
  | .align n => (t + n - 1) / n * n

/-- The position after all of them. -/
def afterAll (t : Nat) (cs : List Call) : Nat := cs.foldl after t

/-- What the calls give: those that read give the bits of the file at their position, in the form asked for, and the others give nothing. -/
def answered (file : List Byte) : Nat → List Call → List Out → Prop
  | _, [], outs => outs = []
  | t, .bits n :: cs, outs =>
    ∃ x rest, outs = .word n x :: rest ∧ outBits (.word n x) = ((bytesBits file).drop t).take n ∧ x.toNat < 2 ^ n ∧ answered file (t + n) cs rest
  | t, .bytes n :: cs, outs =>
    ∃ d rest, outs = .data d :: rest ∧ d = (file.drop (t / 8)).take n ∧ answered file (t + 8 * n) cs rest
  | t, c :: cs, outs => answered file (after t c) cs outs

/-- Calls with arguments in their range: fields of 1 to 32 bits, bytes and positions at byte boundaries, positions below 4 GB, skips of less than a
buffer, alignment to whole bytes. -/
def proper (size t : Nat) : Call → Prop
  | .bits n => 1 ≤ n ∧ n ≤ 32
  | .bytes _ => t % 8 = 0
  | .seek p => t % 8 = 0 ∧ p < 2 ^ 32
  | .skip n => n < 8 * size
  | .skipBytes _ => True
  | .align n => 0 < n ∧ n % 8 = 0

/-- All calls are proper and end at least 8 bytes before the end of a file of `len` bytes. -/
def allProper (size len : Nat) : Nat → List Call → Prop
  | _, [] => True
  | t, c :: cs => proper size t c ∧ after t c + 64 ≤ 8 * len ∧ allProper size len (after t c) cs

end Verif.FileReader.Spec

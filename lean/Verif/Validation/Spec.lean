import Verif.Validation.Model
/-
What has been seen so far of a stream, read off the calls themselves, and when a sample does not follow the one before it.
-/
namespace Verif.Validation.Spec
open Verif.Validation

/-- The sample number of a call for a sample of stream `k`. -/
def useOf (k : Nat) : Ev → Option Nat
  | .use j n => if j = k then some n else none
  | _ => none

/-- The number of samples told at the end of a fragment of stream `k`. -/
def totalOf (k : Nat) : Ev → Option Nat
  | .finish j t => if j = k then some t else none
  | _ => none

/-- The number of the last sample of stream `k` among the calls. -/
def lastUse (k : Nat) (es : List Ev) : Option Nat := (es.filterMap (useOf k)).getLast?

/-- The number of samples of stream `k` in the file the last fragment came from. -/
def lastTotal (k : Nat) (es : List Ev) : Option Nat := (es.filterMap (totalOf k)).getLast?

/-- Sample `n` follows what came before: it is the first, or the successor of the last one, or the first of a file and the last one was the last of its file. -/
def Follows (k : Nat) (before : List Ev) (n : Nat) : Prop :=
  ∀ a, lastUse k before = some a → n = a + 1 ∨ (n = 0 ∧ lastTotal k before = some (a + 1))

/-- Streams there is room for, and numbers a file can have. -/
def Fits : Ev → Prop
  | .start _ _ => True
  | .use k n => k < 16 ∧ n < 2 ^ 64 - 2
  | .finish k t => k < 16 ∧ t < 2 ^ 64 - 2

end Verif.Validation.Spec

import Verif.TimeCode.Model
/-
What a time code means, independent of how the program computes with it.
-/
namespace Verif.TimeCode.Spec
open Verif.TimeCode

/-- The number of frames since midnight, with `n` frames per second. -/
def total (n : Nat) (t : TC) : Nat := ((t.hours * 60 + t.minutes) * 60 + t.seconds) * n + t.frames

/-- The number of frames of a day, with `n` frames per second. -/
def day (n : Nat) : Nat := 24 * 60 * 60 * n

/-- A time code of a day, with `n` frames per second. -/
def Proper (n : Nat) (t : TC) : Prop := t.frames < n ∧ t.seconds < 60 ∧ t.minutes < 60 ∧ t.hours < 24

/-- The eight decimal digits hhmmssff written as hexadecimal digits. -/
def digits (t : TC) : Nat :=
  [t.hours / 10, t.hours % 10, t.minutes / 10, t.minutes % 10, t.seconds / 10, t.seconds % 10, t.frames / 10, t.frames % 10].foldl
    (fun v d => 16 * v + d) 0

/-- The `i`-th hexadecimal digit from the right. -/
def digit (w : BitVec 32) (i : Nat) : Nat := w.toNat / 16 ^ i % 16

/-- The time code of a frame of the day at 25 frames per second. -/
def codeOf (k : Nat) : TC where
  frames := k % 25
  seconds := k / 25 % 60
  minutes := k / (25 * 60) % 60
  hours := k / (25 * 60 * 60) % 24

/-- A time code sample: a time in 100 ns and the word of a time code of a day at 25 frames per second. -/
def Coded (x : Nat × BitVec 32) : Prop := ∃ k, x.2.toNat = digits (codeOf k)

/-- Sample `y` follows `x` without a break: one frame (40 ms) later, with the next time code. -/
def Follows (x y : Nat × BitVec 32) : Prop :=
  y.1 = x.1 + 400000 ∧ ∃ k, x.2.toNat = digits (codeOf k) ∧ y.2.toNat = digits (codeOf (k + 1))

/-- Samples that follow each other without a break. -/
def Run (l : List (Nat × BitVec 32)) : Prop := ∀ i x y, l[i]? = some x → l[i + 1]? = some y → Follows x y

/-- Samples at increasing times that differ by whole milliseconds. -/
def Steady (l : List (Nat × BitVec 32)) : Prop :=
  l.Pairwise (fun x y => x.1 < y.1 ∧ (y.1 - x.1) % 10000 = 0)

/-- A history of time code samples cut where a sample does not follow the one before it. -/
structure Runs (rs : List (List (Nat × BitVec 32))) : Prop where
  ne : ∀ r ∈ rs, r ≠ []
  run : ∀ r ∈ rs, Run r
  cut : ∀ i r r' x y, rs[i]? = some r → rs[i + 1]? = some r' → r.getLast? = some x → r'.head? = some y → ¬ Follows x y

/-! ### linear time code (SMPTE 12M) -/

/-- The lowest `w` bits of a number, lowest first. -/
def low (n w : Nat) : List Bool := (List.range w).map (fun i => n.testBit i)

/-- The bits of a linear time code word that do not belong to the time: eight groups of four user bits, and the flags
beside the tens. -/
structure Extra where
  user : Fin 8 → Fin 16
  flags : Fin 6 → Bool

/-- The sync word. -/
def sync : List Bool :=
  [false, false, true, true, true, true, true, true, true, true, true, true, true, true, false, true]

/-- The 80 bits of a word in the order in which they are sent. -/
def word (t : TC) (e : Extra) : List Bool :=
  low (t.frames % 10) 4 ++ low (e.user 0) 4 ++ low (t.frames / 10) 2 ++ [e.flags 0, e.flags 1] ++ low (e.user 1) 4 ++
  low (t.seconds % 10) 4 ++ low (e.user 2) 4 ++ low (t.seconds / 10) 3 ++ [e.flags 2] ++ low (e.user 3) 4 ++
  low (t.minutes % 10) 4 ++ low (e.user 4) 4 ++ low (t.minutes / 10) 3 ++ [e.flags 3] ++ low (e.user 5) 4 ++
  low (t.hours % 10) 4 ++ low (e.user 6) 4 ++ low (t.hours / 10) 2 ++ [e.flags 4, e.flags 5] ++ low (e.user 7) 4 ++
  sync

/-- Bi-phase mark code: two half cells for a bit; the level changes at the beginning of every bit and in the middle of a
one. `level` is the level before. -/
def biphase : (level : Bool) → List Bool → List Bool
  | _, [] => []
  | level, b :: bs => let l := !level; let r := if b then !l else l; l :: r :: biphase r bs

end Verif.TimeCode.Spec

/-
The meaning of the ISO base media sample tables (ISO/IEC 14496-12), independent of the code.
-/
namespace Verif.Tables.Spec

/-- Sample-to-chunk table: entries (first_chunk, samples_per_chunk); the number of samples in chunk `c` (counted
from 1) is given by the last entry whose first_chunk is not after `c`. -/
def samplesInChunk (es : List (Nat × Nat)) (c : Nat) : Nat :=
  match (es.filter (fun e => decide (e.1 ≤ c))).getLast? with
  | some e => e.2
  | none => 0

/-- Number of samples in the chunks before chunk `c`. -/
def samplesBefore (f : Nat → Nat) (c : Nat) : Nat := ((List.range' 1 (c - 1)).map f).sum

/-- A valid sample-to-chunk table: first chunks start at 1 and increase, no run of empty chunks. -/
def ValidStsc (es : List (Nat × Nat)) : Prop :=
  (∃ n rest, es = (1, n) :: rest) ∧ es.Pairwise (fun a b => a.1 < b.1) ∧ ∀ e ∈ es, 0 < e.2

/-- Run-length tables (stts, ctts): entries (sample_count, value); one value per sample. -/
def expand (es : List (Nat × Nat)) : List Nat := es.flatMap (fun e => List.replicate e.1 e.2)

end Verif.Tables.Spec

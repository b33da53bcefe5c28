import Verif.Reader.Spec
/-
The presentation times of a stream, from the durations of its samples and their composition offsets (ISO/IEC 14496-12, 8.6.1): first, last and end.
-/
namespace Verif.Span.Spec

/-- When sample `i` is shown: the durations before it and its offset (0 without offsets). -/
def shown (durations offsets : List Nat) (i : Nat) : Nat := (durations.take i).sum + offsets.getD i 0

/-- `first`: the earliest time a sample is shown; `last`: the latest; `fin`: the end of a sample that is shown last. -/
structure Span (durations offsets : List Nat) (first last fin : Nat) : Prop where
  first_is : ∃ i, i < durations.length ∧ shown durations offsets i = first
  first_le : ∀ i, i < durations.length → first ≤ shown durations offsets i
  last_ge : ∀ i, i < durations.length → shown durations offsets i ≤ last
  fin_is : ∃ (j : Nat) (h : j < durations.length), shown durations offsets j = last ∧ fin = last + durations[j]

/-- The track has no composition offsets, or a table with one for each sample. -/
def HasOffsets (b : Verif.Reader.TrackBoxes) (es : List (Nat × Nat)) (offsets : List Nat) : Prop :=
  (b.ctts = none ∧ offsets = []) ∨
    ∃ cs, b.ctts = some (cs.length :: cs.flatMap fun e => [e.1, e.2]) ∧ offsets = Verif.Tables.Spec.expand cs ∧ offsets.length = (Verif.Tables.Spec.expand es).length

end Verif.Span.Spec

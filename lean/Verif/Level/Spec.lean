/-
What decoding times and a common start of the streams are, independent of the code.
-/
namespace Verif.Level.Spec

/-- `u` is the presentation time just before `c` among the times `S`. -/
def Before (S : List Nat) (c u : Nat) : Prop := u ∈ S ∧ u < c ∧ ∀ w ∈ S, w < c → w ≤ u

/-- When a sample with composition time `comp` is shown by a player of the written file: `first` is the decoding time of the
first sample of the track (which the file puts at time 0), `ctts` what is added in the table of composition offsets, `delay` the empty
edit at the start of the track. -/
def shown (comp first ctts delay : Nat) : Int := (comp : Int) - first + ctts + delay

end Verif.Level.Spec

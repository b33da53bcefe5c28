import Verif.Interleave.Model
/-
What a media data section made of samples is, independent of the interleaving code.
-/
namespace Verif.Interleave.Spec

/-- A log of samples (stream, sample) written one behind the other from byte `pos`: each with its position. -/
def place : Nat → List (Nat × QSample) → List (Nat × QSample × Nat)
  | _, [] => []
  | pos, (i, q) :: l => (i, q, pos) :: place (pos + q.body.length) l

/-- The bytes of such a log. -/
def bytes (l : List (Nat × QSample)) : List UInt8 := l.flatMap (·.2.body)

/-- The samples of stream `i`. -/
def ofStream {α : Type} (i : Nat) (l : List (Nat × α)) : List α := (l.filter (fun x => x.1 == i)).map (·.2)

end Verif.Interleave.Spec

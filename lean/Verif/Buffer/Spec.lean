import Verif.Buffer.Model
/-
Specification: a growing buffer is the list of its elements, a memory storage is a byte file with a position.
-/
namespace Verif.Buffer.Spec
variable {α : Type}

/-- Content after a sequence of buffer calls; `none` when more is taken back than there is. -/
def content (c : List α) : List (BOp α) → Option (List α)
  | [] => some c
  | .add xs :: ops => content (c ++ xs) ops
  | .direct xs :: ops => content (c ++ xs) ops
  | .reset :: ops => content [] ops
  | .back n :: ops => if n ≤ c.length then content (c.take (c.length - n)) ops else none

/-- An ordinary file. -/
structure File (α : Type) where
  bytes : List α
  pos : Nat

/-- Overwrite at the position, extending the file at its end. -/
def File.write (f : File α) (xs : List α) : File α :=
  ⟨f.bytes.take f.pos ++ xs ++ f.bytes.drop (f.pos + xs.length), f.pos + xs.length⟩

inductive FOp (α : Type) where
  | write (xs : List α)
  | seek (p : Nat)

/-- Seeking is allowed up to the end of the file. -/
def File.run (f : File α) : List (FOp α) → Option (File α)
  | [] => some f
  | .write xs :: ops => (f.write xs).run ops
  | .seek p :: ops => if p ≤ f.bytes.length then File.run { f with pos := p } ops else none

end Verif.Buffer.Spec

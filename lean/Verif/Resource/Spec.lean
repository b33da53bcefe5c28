import Verif.Resource.Model

namespace Verif.Resource.Spec

/-- The number of handles that hold an object: variables, and handles in objects that have not been released. -/
def handles (s : State) (o : Nat) : Nat :=
  (s.vars.filter fun v => v = some (some o)).length +
    (((s.objs.zipIdx).filter fun x => x.2 ∉ s.log ∧ x.1.next = some o)).length

/-- An assignment that keeps its right hand side alive: there is nothing to release on the left, or it has another handle, or the right hand side is
another variable. -/
def Careful (s : State) : Op → Prop
  | .assign l r => ∀ a b, locOf s l = some a → locOf s r = some b →
      ∀ o, read s a = some o → 2 ≤ handles s o ∨ ∃ v, b = .var v ∧ a ≠ b
  | _ => True

/-- All assignments of a program. -/
def CarefulRun : State → List Op → Prop
  | _, [] => True
  | s, o :: ops => Careful s o ∧ CarefulRun (step s o) ops

end Verif.Resource.Spec

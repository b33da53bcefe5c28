import Verif.Promise.Model

/-
What a chain of promises must do, in terms of the handlers only: `hs` is the list of the value and error handlers that have been attached to the
promise and its forwards, in order.
-/
namespace Verif.Promise.Spec
variable {H V E : Type}

/-- The handlers of a promise. -/
abbrev Pair (H : Type) := Option H × Option H

/-- An exception goes to the error handler, and if that says so to the next one; it waits where no handler is attached. -/
def onError (T : Table H V E) : List (Pair H) → E → List (Call H V E)
  | (_, some h) :: rest, e =>
    .error h e :: (match T.er h e with
      | .ok true => onError T rest e
      | _ => [])
  | _, _ => []

/-- A value goes to the value handlers one after the other; what a handler throws goes to its error handler; it waits where no handler is
attached. -/
def onValue (T : Table H V E) : List (Pair H) → V → List (Call H V E)
  | (some h, e) :: rest, v =>
    .value h v :: (match T.cb h v with
      | some x => onError T ((some h, e) :: rest) x
      | none => onValue T rest v)
  | _, _ => []

/-- The outcome of an operation on which a promise was made. -/
inductive Result (V E : Type)
  | value (v : V)
  | error (e : E)

def onResult (T : Table H V E) (hs : List (Pair H)) : Result V E → List (Call H V E)
  | .value v => onValue T hs v
  | .error e => onError T hs e

/-- The handlers attached by a history to a chain of `n` promises. -/
def attach : List (Op H V E) → List (Pair H) → List (Pair H)
  | [], hs => hs
  | .setCb i h :: ops, hs => attach ops (hs.modify i fun p => (some h, p.2))
  | .setEr i h :: ops, hs => attach ops (hs.modify i fun p => (p.1, some h))
  | _ :: ops, hs => attach ops hs

/-- The results in a history. -/
def results : List (Op H V E) → List (Result V E)
  | [] => []
  | .deliver v :: ops => .value v :: results ops
  | .fail e :: ops => .error e :: results ops
  | _ :: ops => results ops

/-- Every handler is attached at most once. -/
def Once (ops : List (Op H V E)) : Prop :=
  ops.Pairwise fun a b => match a, b with
    | .setCb i _, .setCb j _ => i ≠ j
    | .setEr i _, .setEr j _ => i ≠ j
    | _, _ => True

end Verif.Promise.Spec

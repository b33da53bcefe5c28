import Mathlib.Data.List.Basic

/-
Model of `CPromise` (src/mg/promises.h). A promise with the promises made by `forward` from it is a list of nodes, the promise itself first.
Handlers are names; what they do when they run is given by a table: a value handler returns or throws, an error handler returns whether to go on,
or throws. `call_cb` and the others hold the (recursive) lock of the node while they run, so they are atomic; handlers that call back into the
same chain are not modelled.
-/
namespace Verif.Promise

/-- The handlers of a program: `H` names them, `V` are the values and `E` the exceptions. -/
structure Table (H V E : Type) where
  /-- what a value handler throws, if it does -/
  cb : H → V → Option E
  /-- the null resource -/
  null : V → Bool
  /-- what an error handler returns (`process_further`), or throws -/
  er : H → E → Except E Bool

/-- src/mg/promises.h 34-46: the members. A null resource is `none` in `_value`; handlers that are not set are `none`. -/
structure Node (H V E : Type) where
  cb : Option H
  er : Option H
  value : Option V
  eptr : Option E

/-- `CPromise()`. -/
def Node.empty {H V E : Type} : Node H V E := ⟨none, none, none, none⟩

/-- A call of a handler. -/
inductive Call (H V E : Type)
  | value (h : H) (v : V)
  | error (h : H) (e : E)
  deriving DecidableEq

variable {H V E : Type}

/-- What an operation does: the chain after it, the handlers called in order, and the exception that leaves it. -/
structure Out (H V E : Type) where
  chain : List (Node H V E)
  calls : List (Call H V E)
  thrown : Option E

/-- src/mg/promises.h 83-99: `call_er`; without an error handler the exception is kept. -/
def callEr (T : Table H V E) : List (Node H V E) → E → Out H V E
  | [], _ => ⟨[], [], none⟩
  | n :: rest, e =>
    match n.er with
    | none => ⟨{ n with eptr := some e } :: rest, [], none⟩
    | some h =>
      match T.er h e with
      | .error e' => ⟨n :: rest, [.error h e], some e'⟩
      | .ok false => ⟨n :: rest, [.error h e], none⟩
      | .ok true =>
        let r := callEr T rest e
        ⟨n :: r.chain, .error h e :: r.calls, r.thrown⟩

/-- src/mg/promises.h 60-81: `call_cb`; without a value handler the value is kept (a null resource is kept as none). An exception of the handler,
or one that leaves the next promise, goes to `call_er` of this one. -/
def callCb (T : Table H V E) : List (Node H V E) → V → Out H V E
  | [], _ => ⟨[], [], none⟩
  | n :: rest, v =>
    match n.cb with
    | none => ⟨{ n with value := if T.null v then none else some v } :: rest, [], none⟩
    | some h =>
      match T.cb h v with
      | some e =>
        let r := callEr T (n :: rest) e
        ⟨r.chain, .value h v :: r.calls, r.thrown⟩
      | none =>
        let r := callCb T rest v
        match r.thrown with
        | none => ⟨n :: r.chain, .value h v :: r.calls, none⟩
        | some e =>
          let q := callEr T (n :: r.chain) e
          ⟨q.chain, .value h v :: (r.calls ++ q.calls), q.thrown⟩

/-- src/mg/promises.h 118-130: `set_cb` on the promise at place `i` of the chain. -/
def setCb (T : Table H V E) (h : H) : Nat → List (Node H V E) → Out H V E
  | _, [] => ⟨[], [], none⟩
  | 0, n :: rest =>
    match n.value with
    | none => ⟨{ n with cb := some h } :: rest, [], none⟩
    | some v => callCb T ({ n with cb := some h } :: rest) v
  | i + 1, n :: rest =>
    let r := setCb T h i rest
    ⟨n :: r.chain, r.calls, r.thrown⟩

/-- src/mg/promises.h 131-143: `set_er`. -/
def setEr (T : Table H V E) (h : H) : Nat → List (Node H V E) → Out H V E
  | _, [] => ⟨[], [], none⟩
  | 0, n :: rest =>
    match n.eptr with
    | none => ⟨{ n with er := some h } :: rest, [], none⟩
    | some e => callEr T ({ n with er := some h } :: rest) e
  | i + 1, n :: rest =>
    let r := setEr T h i rest
    ⟨n :: r.chain, r.calls, r.thrown⟩

/-- src/mg/promises.h 101-112: `forward()` on the last promise of the chain makes a new one (on the others it returns the next one). -/
def forward (c : List (Node H V E)) : List (Node H V E) := c ++ [.empty]

/-- The operations of a program on a chain. -/
inductive Op (H V E : Type)
  | setCb (i : Nat) (h : H)
  | setEr (i : Nat) (h : H)
  | deliver (v : V)
  | fail (e : E)

/-- One operation. -/
def step (T : Table H V E) (c : List (Node H V E)) : Op H V E → Out H V E
  | .setCb i h => setCb T h i c
  | .setEr i h => setEr T h i c
  | .deliver v => callCb T c v
  | .fail e => callEr T c e

/-- A history of operations: the chain, and all calls of handlers in order. -/
def run (T : Table H V E) : List (Op H V E) → List (Node H V E) → List (Node H V E) × List (Call H V E)
  | [], c => (c, [])
  | op :: ops, c =>
    let r := step T c op
    let q := run T ops r.chain
    (q.1, r.calls ++ q.2)

end Verif.Promise

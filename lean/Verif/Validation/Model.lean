/-
Model of the check of the written fragments, `CMP4FragmentValidation` of /repo/src/mgcli/fragment_validation.h 22-94, which `add_frames_to_m4f` calls for every fragment
(/repo/src/mg/media/mp4fragmented.h 601-606, 654-657, 685-688; both the class and the calls are compiled only with FRAGMENTEDVALIDATION and _DEBUG).
Simplified: the assertion beside each message is left out, and the message is a value instead of a line on the console.
-/
namespace Verif.Validation

/-- UINT64_MAX, the mark for "none" (fragment_validation.h 38-39). -/
def mark : Nat := 2 ^ 64 - 1

/-- `x - 1` in 64 unsigned bits. -/
def pred64 (x : Nat) : Nat := (x + (2 ^ 64 - 1)) % 2 ^ 64

/-- The calls of the callback in the order of `add_frames_to_m4f`, mp4fragmented.h 604, 656, 687. -/
inductive Ev where
  | start (stream total : Nat)
  | use (stream number : Nat)
  | finish (stream total : Nat)
deriving DecidableEq, Repr

/-- The two messages with the stream they belong to (the program prints the two numbers only), fragment_validation.h 61-65 and 73-77. -/
inductive Msg where
  | atTheEnd (stream total last : Nat)
  | inTheMiddle (stream before last : Nat)
deriving DecidableEq, Repr

/-- `_last_sample_number` and `_total_samples`, fragment_validation.h 29-30. -/
structure State where
  last : List Nat
  total : List Nat

/-- The constructor, fragment_validation.h 34-41; STREAM_MAX is 16 (line 24). -/
def init : State := ⟨List.replicate 16 mark, List.replicate 16 mark⟩

/-- `using_sample_in_fragment`, `start_sample_in_fragment` and `end_sample_in_fragment`, fragment_validation.h 43-92. `none`: an element outside of the arrays is used. -/
def step (s : State) : Ev → Option (State × List Msg)
  | .start _ _ => some (s, [])
  | .finish k total => if k < s.total.length then some ({ s with total := s.total.set k total }, []) else none
  | .use k n =>
    match s.last[k]?, s.total[k]? with
    | some last, some total =>
      let msgs :=
        if mark ≠ last then
          if 0 = n then (if pred64 total ≠ last then [Msg.atTheEnd k total last] else [])
          else if pred64 n ≠ last then [Msg.inTheMiddle k (pred64 n) last] else []
        else []
      some ({ s with last := s.last.set k n }, msgs)
    | _, _ => none

/-- All calls one after the other, and all messages. -/
def run : State → List Ev → Option (State × List Msg)
  | s, [] => some (s, [])
  | s, e :: es =>
    match step s e with
    | none => none
    | some (s, m) => (run s es).map fun r => (r.1, m ++ r.2)

/-- What is printed for a sequence of calls, from the constructor on. -/
def messages (es : List Ev) : Option (List Msg) := (run init es).map (·.2)

/-- The calls `add_frames_to_m4f` makes for one fragment of a file with `total` samples in the stream, mp4fragmented.h 601-688: the samples `ns` are those put into the fragment. -/
def fragment (k total : Nat) (ns : List Nat) : List Ev := .start k total :: (ns.map (.use k) ++ [.finish k total])

/-- The fragments of one file, one call of `add_frames_to_m4f` each. -/
def file (k : Nat) (f : Nat × List (List Nat)) : List Ev := f.2.flatMap (fragment k f.1)

end Verif.Validation

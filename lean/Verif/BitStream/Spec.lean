import Verif.BitStream.Model
/-
Specification of a bit stream: a list of Booleans, most significant bit first.
-/
namespace Verif.BitStream.Spec

/-- The `n` low bits of `v`, most significant first. -/
def fieldBits {w : Nat} (v : BitVec w) (n : Nat) : List Bool :=
  (List.range n).map (fun i => v.getLsbD (n - 1 - i))

/-- The bits of a byte string. -/
def bytesBits (bs : List (BitVec 8)) : List Bool := bs.flatMap (fun b => fieldBits b 8)

/-- The bit string a sequence of calls denotes. -/
def opsBits : List WOp → List Bool
  | [] => []
  | .put v n :: ops => fieldBits v n ++ opsBits ops
  | .flush :: ops => opsBits ops
  | .bytes bs :: ops => bytesBits bs ++ opsBits ops

/-- Field widths 1..32, and byte blocks are only written at byte boundaries; `t` bits precede. -/
def ok (t : Nat) : List WOp → Prop
  | [] => True
  | .put _ n :: ops => 1 ≤ n ∧ n ≤ 32 ∧ ok (t + n) ops
  | .flush :: ops => ok t ops
  | .bytes bs :: ops => t % 8 = 0 ∧ ok (t + bs.length * 8) ops

end Verif.BitStream.Spec

import Verif.Box.Model
/-
ISO base media file format box structure: 32 bit big-endian size (including the 8 byte header), 32 bit type,
payload.
-/
namespace Verif.Box.Spec
open Verif.Box

/-- 32 bit big-endian. -/
def be32 (n : Nat) : List (BitVec 8) :=
  [BitVec.ofNat 8 (n / 16777216), BitVec.ofNat 8 (n / 65536), BitVec.ofNat 8 (n / 256), BitVec.ofNat 8 n]

/-- The bytes of a sequence of items. -/
def encode : Items → List (BitVec 8)
  | .nil => []
  | .uint x rest => be32 x.toNat ++ encode rest
  | .bytes bs rest => bs ++ encode rest
  | .box t body rest => be32 (8 + (encode body).length) ++ be32 t.toNat ++ encode body ++ encode rest

/-- Every box is shorter than 2^32 bytes. -/
def fits : Items → Prop
  | .nil => True
  | .uint _ rest => fits rest
  | .bytes _ rest => fits rest
  | .box _ body rest => 8 + (encode body).length < 2 ^ 32 ∧ fits body ∧ fits rest

def nat32 (a b c d : BitVec 8) : Nat := a.toNat * 16777216 + b.toNat * 65536 + c.toNat * 256 + d.toNat

/-- A box parser: cut a byte string into (type, payload) boxes; `none` on malformed input. -/
def parse : (fuel : Nat) → List (BitVec 8) → Option (List (Nat × List (BitVec 8)))
  | _, [] => some []
  | fuel + 1, a :: b :: c :: d :: e :: f :: g :: h :: rest =>
    let size := nat32 a b c d
    if size < 8 then none
    else if rest.length < size - 8 then none
    else
      match parse fuel (rest.drop (size - 8)) with
      | none => none
      | some bs => some ((nat32 e f g h, rest.take (size - 8)) :: bs)
  | _, _ => none

/-- A sequence consisting of boxes only, seen as the list of its boxes (type, body). -/
def boxes : Items → Option (List (BitVec 32 × Items))
  | .nil => some []
  | .box t body rest => (boxes rest).map (fun bs => (t, body) :: bs)
  | _ => none

end Verif.Box.Spec

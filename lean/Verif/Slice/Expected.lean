import Verif.Slice.Model
import Verif.Slice.Spec
import Verif.H264.Expected
/-
What the members of the parser must be, and which parameter sets and slices are considered.
-/
namespace Verif.Slice.Spec
open Verif.H264.Spec

/-- The members for slice groups (type 6 is not considered, see `GroupsOk`). -/
def groupMembers : Groups → Slice.Groups
  | .interleaved a b l => ⟨0, a :: b :: l, [], none, 0, []⟩
  | .dispersed _ => ⟨1, [], [], none, 0, []⟩
  | .foreground a l => ⟨2, [], a :: l, none, 0, []⟩
  | .changing _ k d r => ⟨k, [], [], some d, r, []⟩
  | .explicit _ a l => ⟨6, [], [], none, 0, a :: l⟩

/-- The members for a picture parameter set and what was read of the extension. -/
def ppsMembers (p : Pps) (ext : Option Slice.Ext) : Slice.Pps :=
  ⟨p.id, p.spsId, p.entropy, p.picOrder, minus1 p.groups, p.groups.map groupMembers, p.l0Minus1, p.l1Minus1, p.weighted, p.bipred, p.qp, p.qs, p.chroma, p.deblocking, p.constrained, p.redundant, ext⟩

/-- At most 64 slice groups (the standard has at most 8), codes in the range of C41, not the explicit map of type 6. -/
def GroupsOk : Groups → Prop
  | .interleaved a b l => l.length < 63 ∧ ∀ x ∈ a :: b :: l, UOk x
  | .dispersed n => 0 < n ∧ UOk n
  | .foreground a l => l.length < 64 ∧ ∀ x ∈ a :: l, UOk x.1 ∧ UOk x.2
  | .changing n k _ r => 0 < n ∧ UOk n ∧ 3 ≤ k ∧ k ≤ 5 ∧ UOk r
  | .explicit _ _ _ => False

def PpsOk (p : Pps) : Prop :=
  UOk p.id ∧ UOk p.spsId ∧ (∀ g, p.groups = some g → GroupsOk g) ∧ UOk p.l0Minus1 ∧ UOk p.l1Minus1 ∧ p.bipred < 4 ∧ SOk p.qp ∧ SOk p.qs ∧ SOk p.chroma

/-- The members for a slice header. The direct flag and the overrides are read for types below 5 only. -/
def headerMembers (s : Sps) (p : Pps) (nalType : Nat) (x : Slice) : Slice.Header :=
  let cycle := match s.poc with | .cycle zero _ _ _ => !zero | _ => false
  let bottom := p.picOrder && x.picture.isNone
  let listed := decide (x.type = 0 ∨ x.type = 1 ∨ x.type = 3)
  { firstMb := x.firstMb
    sliceType := x.type
    ppsId := x.ppsId
    frameNum := x.frameNum
    fieldPic := if s.frameMbsOnly then none else some x.picture.isSome
    bottomField := if s.frameMbsOnly then none else x.picture
    idrPicId := if nalType = 5 then x.idrPicId else 0
    pocLsb := match s.poc with | .lsb _ => x.pocLsb | _ => 0
    deltaBottom := match s.poc with | .lsb _ => if bottom then x.deltaBottom else 0 | _ => 0
    delta0 := if cycle then some x.delta0 else none
    delta1 := if cycle && bottom then some x.delta1 else none
    redundant := if p.redundant then x.redundant else 0
    direct := if x.type = 1 then some x.direct else none
    override := if listed then some x.override.isSome else none
    l0Minus1 := if listed then (match x.override with | some n => n.1 | none => 0) else 0
    l1Minus1 := if x.type = 1 then (match x.override with | some n => n.2 | none => 0) else 0 }

/-- Slices that belong to the parameter sets: numbers in the range of their fields and of C41, fields only where the sequence allows them, at most 32 bits for frame numbers and order counts. -/
structure SliceOk (s : Sps) (x : Slice) : Prop where
  firstMb : UOk x.firstMb
  type : x.type < 10
  ppsId : UOk x.ppsId
  plane : separate s = false
  log2 : s.log2MaxFrameNumMinus4 ≤ 28
  frameNum : x.frameNum < 2 ^ (s.log2MaxFrameNumMinus4 + 4)
  picture : s.frameMbsOnly = true → x.picture = none
  idrPicId : UOk x.idrPicId
  lsb : ∀ n, s.poc = .lsb n → n ≤ 28 ∧ x.pocLsb < 2 ^ (n + 4)
  deltaBottom : SOk x.deltaBottom
  delta0 : SOk x.delta0
  delta1 : SOk x.delta1
  redundant : UOk x.redundant
  override : ∀ n, x.override = some n → UOk n.1 ∧ UOk n.2

end Verif.Slice.Spec

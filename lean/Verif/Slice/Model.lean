import Verif.H264.Model
/-
Model of the rest of the H.264 parser, /repo/src/mg/media/mp4/h264.fl: picture parameter sets (286-433), the beginning of slice headers (604-745), SEI messages (879-900), and of the listing of the NAL units of a sample,
`parse_h264_header` of /repo/src/mgcli/mp4info.cpp 2983-3123. The readers for codes and flags are those of module H264.
-/
namespace Verif.Slice
open Verif.H264 (Parser u flag ue se many opt uePair trailing decodeNal Sequence)
open Verif.BitStream (Byte Mem RErr RState rInit nextbits)

/-- h264.fl 288-299, the members for slice groups; what is not read keeps its default. -/
structure Groups where
  mapType : Nat
  runLength : List Nat
  rects : List (Nat × Nat)
  direction : Option Bool
  changeRate : Nat
  ids : List Nat
deriving DecidableEq

/-- h264.fl 314-345: the arrays have 64 places, more is an overrun. The group of a map unit is read as an Exp-Golomb code. -/
def groups (n : Nat) : Parser Groups := do
  let t ← ue
  if t = 0 then do
    if 64 ≤ n then throw .ub
    let l ← many ue (n + 1)
    return ⟨t, l, [], none, 0, []⟩
  else if t = 2 then do
    if 64 < n then throw .ub
    let l ← many uePair n
    return ⟨t, [], l, none, 0, []⟩
  else if t = 3 ∨ t = 4 ∨ t = 5 then do
    let d ← flag
    let r ← ue
    return ⟨t, [], [], some d, r, []⟩
  else if t = 6 then do
    let m ← ue
    if 64 ≤ m then throw .ub
    let l ← many ue (m + 1)
    return ⟨t, [], [], none, 0, l⟩
  else return ⟨t, [], [], none, 0, []⟩

/-- h264.fl 378-416: the members of the extension. -/
structure Ext where
  transform8x8 : Bool
  scaling : Bool
  secondOffset : Int
deriving DecidableEq

/-- h264.fl 288-418: the members of `pic_parameter_set_rbsp`; `ext` is what is read when `extended` is set. -/
structure Pps where
  id : Nat
  spsId : Nat
  entropy : Bool
  picOrder : Bool
  groupsMinus1 : Nat
  groups : Option Groups
  l0Minus1 : Nat
  l1Minus1 : Nat
  weighted : Bool
  bipred : Nat
  qp : Int
  qs : Int
  chroma : Int
  deblocking : Bool
  constrained : Bool
  redundant : Bool
  ext : Option Ext
deriving DecidableEq

/-- h264.fl 305-362, up to the extension. -/
def ppsBase : Parser Pps := do
  let id ← ue
  let sps ← ue
  let entropy ← flag
  let order ← flag
  let n ← ue
  let g ← opt (0 < n) (groups n)
  let l0 ← ue
  let l1 ← ue
  let w ← flag
  let b ← u 2
  let qp ← se
  let qs ← se
  let c ← se
  let d ← flag
  let i ← flag
  let r ← flag
  return ⟨id, sps, entropy, order, n, g, l0, l1, w, b, qp, qs, c, d, i, r, none⟩

/-- h264.fl 385-410: the scaling lists of `n` kinds from number `i` on; every list present is read as 16 or 64 numbers. -/
def scalingLists : (n : Nat) → (i : Nat) → Parser Unit
  | 0, _ => return ()
  | n + 1, i => do
    let p ← flag
    let _ ← opt p (many se (if i < 6 then 16 else 64))
    scalingLists n (i + 1)

/-- h264.fl 378-416. -/
def ppsExt : Parser Ext := do
  let t ← flag
  let m ← flag
  let _ ← opt m (scalingLists (6 + 2 * t.toNat) 0)
  let s ← se
  return ⟨t, m, s⟩

/-- h264.fl 366-374: whether there is an extension, after `n` bits of a parameter set of `size` bytes (0: not known). -/
def extended (size n : Nat) : Bool := size ≠ 0 && (n + n % 8) / 8 < size

/-- The number of bits read, `numbits()`. -/
def numbits : Parser Nat := fun s => .ok (s.tot, s)

/-- h264.fl 286-427: `pic_parameter_set_rbsp::get` with the size given to the constructor (430-431). -/
def pps (size : Nat) : Parser Pps := do
  let p ← ppsBase
  let n ← numbits
  let e ← opt (extended size n) ppsExt
  trailing
  return { p with ext := e }

/-- `add_picture_parameter_set`, /repo/src/mg/media/mp4parse.h 1558-1575 (`known = false`), and the printing of an avcC box, /repo/src/mgcli/mp4info.cpp 281-306 (`known = true`: the constructor gets the size).
`beyond` is the memory behind the data. -/
def parsePps (known : Bool) (beyond : Mem) (nal : List Byte) : Except RErr Pps :=
  match decodeNal nal with
  | none => .error .endOfData
  | some d =>
    match pps (if known then (d.rbsp.drop 1).length else 0) (rInit (d.rbsp.drop 1) beyond) with
    | .error e => .error e
    | .ok (x, _) => .ok x

/-- h264.fl 640-665: the members of `slice_header` that are read before the return in line 745; `none` for members that were not written. -/
structure Header where
  firstMb : Nat
  sliceType : Nat
  ppsId : Nat
  frameNum : Nat
  fieldPic : Option Bool
  bottomField : Option Bool
  idrPicId : Nat
  pocLsb : Nat
  deltaBottom : Int
  delta0 : Option Int
  delta1 : Option Int
  redundant : Nat
  direct : Option Bool
  override : Option Bool
  l0Minus1 : Nat
  l1Minus1 : Nat
deriving DecidableEq

/-- h264.fl 696-700. -/
def fieldFlags : Parser (Bool × Option Bool) := do
  let f ← flag
  let b ← opt f flag
  return (f, b)

/-- h264.fl 731-738: the two numbers after the override flag. -/
def overrides (t : Nat) : Parser (Bool × Nat × Nat) := do
  let o ← flag
  let a ← opt o ue
  let b ← opt (o && t = 1) ue
  return (o, a.getD 0, b.getD 0)

/-- h264.fl 604-745: `slice_header::get` up to the return, with the constructor 812-844: the parameters come from the sequence and picture parameter set given. `old` says what is in the memory of `field_pic_flag`,
which is not initialised, before. -/
def sliceHeader (sps : Sequence) (p : Pps) (nalType : Nat) (old : Bool) : Parser Header := do
  let firstMb ← ue
  let t ← ue
  let id ← ue
  let frameNum ← u (sps.log2MaxFrameNumMinus4 + 4)
  let f ← opt (!sps.frameMbsOnly) fieldFlags
  let field := match f with | some x => x.1 | none => old
  let idr ← opt (nalType = 5) ue
  let lsb ← opt (sps.poc.type = 0) (u (sps.poc.lsb.getD 0 + 4))
  let bottom ← opt (sps.poc.type = 0 && (p.picOrder && !field)) se
  let d0 ← opt (sps.poc.type = 1 && !(sps.poc.alwaysZero.getD false)) se
  let d1 ← opt ((sps.poc.type = 1 && !(sps.poc.alwaysZero.getD false)) && (p.picOrder && !field)) se
  let red ← opt p.redundant ue
  let dir ← opt (t = 1) flag
  let over ← opt (t = 0 || t = 3 || t = 1) (overrides t)
  return ⟨firstMb, t, id, frameNum, f.map (·.1), f.bind (·.2), idr.getD 0, lsb.getD 0, bottom.getD 0, d0, d1, red.getD 0, dir, over.map (·.1), (over.map (·.2.1)).getD 0, (over.map (·.2.2)).getD 0⟩

/-- h264.fl 879-900: bytes 255 count on, the first other byte ends the number. -/
def ffLoop : (fuel : Nat) → Nat → Parser Nat
  | 0, _ => fun _ => .error .ub
  | fuel + 1, n => fun s =>
    match nextbits s 8 with
    | .error e => .error e
    | .ok x => if x = 0xFF then (do let _ ← u 8; ffLoop fuel (n + 255) : Parser Nat) s else (do return n + (← u 8) : Parser Nat) s

/-- `sei_message`, h264.fl 879-900: payload type and payload size. -/
def sei : Parser (Nat × Nat) := do
  let s ← get
  let t ← ffLoop (s.len + 1) 0
  let n ← ffLoop (s.len + 1) 0
  return (t, n)

/-- mp4info.cpp 2998-3004: `nal_size`, the `k` bytes of the length at `pos`, shifted in 32 bits; `none`: outside of the sample. -/
def lengthAt (sample : List Byte) (pos : Nat) : (k : Nat) → Nat → Option Nat
  | 0, acc => some acc
  | k + 1, acc =>
    match sample[pos]? with
    | none => none
    | some b => lengthAt sample (pos + 1) k ((acc * 256 % 2 ^ 32 + b.toNat) % 2 ^ 32)

/-- mp4info.cpp 2993-3008, 3118: the NAL units that are looked at, for lengths of `k` bytes; `consumed` is advanced by the size and 4. `none`: memory outside of the sample is read. -/
def unitsLoop (sample : List Byte) (k : Nat) : (fuel : Nat) → (consumed : Nat) → Option (List (List Byte))
  | 0, _ => none
  | fuel + 1, consumed =>
    if consumed < sample.length then
      match lengthAt sample consumed k 0 with
      | none => none
      | some n =>
        if sample.length < consumed + k + n then none
        else (unitsLoop sample k fuel ((consumed + (n + 4)) % 2 ^ 32)).map (((sample.drop (consumed + k)).take n) :: ·)
    else some []

/-- One line of the listing, mp4info.cpp 3013-3115. Printing the timing of a picture (SEI payload type 1, 3085-3102) is left out. -/
inductive Line where
  | slice (nalType refIdc : Nat) (h : Header)
  | sei (type size : Nat)
  | other (nalType : Nat)
deriving DecidableEq

/-- mp4info.cpp 3005-3115: one NAL unit; the parameter sets are always the first ones of the file (3024-3025). -/
def lineOf (sps : Sequence) (p : Pps) (old : Bool) (beyond : Mem) (unit : List Byte) : Except RErr Line :=
  match decodeNal unit with
  | none => .error .endOfData
  | some d =>
    if 1 ≤ d.unitType ∧ d.unitType ≤ 5 then
      (sliceHeader sps p d.unitType old (rInit (d.rbsp.drop 1) beyond)).map fun r => .slice d.unitType d.refIdc r.1
    else if d.unitType = 6 then (sei (rInit (d.rbsp.drop 1) beyond)).map fun r => .sei r.1.1 r.1.2
    else .ok (.other d.unitType)

/-- mp4info.cpp 2983-3123: `parse_h264_header`. `memory i` says what was in the place of the i-th header before. -/
def listing (sps : Sequence) (p : Pps) (memory : Nat → Bool) (beyond : Mem) (k : Nat) (sample : List Byte) : Option (List (Except RErr Line)) :=
  (unitsLoop sample k (sample.length + 1) 0).map fun us => us.mapIdx fun i x => lineOf sps p (memory i) beyond x

end Verif.Slice

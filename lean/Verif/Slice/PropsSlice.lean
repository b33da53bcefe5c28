import Verif.Slice.Props
/-
C157: slice headers.
-/
namespace Verif.Slice
open Verif.H264 (Parser u flag ue se many opt uePair trailing decodeNal Sequence Reads At reads_ue reads_se reads_flag reads_u reads_opt reads_opt_some reads_opt_none reads_many reads_optional at_init nal_roundtrip_partial bits_length)
open Verif.BitStream (Byte Mem RErr RState rInit nextbits getbits skipbits)
open Verif.H264.Spec
open Spec

/-- A part that is there under a condition. -/
theorem reads_if {α : Type} {p : Parser α} {b : List Bool} {v : α} (c : Bool) (h : c = true → Reads p b v) {b' : List Bool} (hb : b' = if c then b else []) {v' : Option α} (hv : v' = if c then some v else none) :
    Reads (opt c p) b' v' := by
  rw [hb, hv]; exact reads_opt c h

/-- What the reader takes for the field flag: what it read, or what is in the memory. -/
def usedField (s : Sps) (x : Slice) (old : Bool) : Bool := if s.frameMbsOnly then old else x.picture.isSome

/-- The order count part, in the pieces the reader reads. -/
theorem order_pieces (s : Sps) (p : Spec.Pps) (x : Slice) :
    orderBits s p x =
      (match s.poc with | .lsb n => bits (n + 4) x.pocLsb | _ => []) ++
      ((match s.poc with | .lsb _ => if p.picOrder && x.picture.isNone then seBits x.deltaBottom else [] | _ => []) ++
      ((match s.poc with | .cycle z _ _ _ => if z then [] else seBits x.delta0 | _ => []) ++
       (match s.poc with | .cycle z _ _ _ => if z then [] else (if p.picOrder && x.picture.isNone then seBits x.delta1 else []) | _ => []))) := by
  unfold orderBits
  cases s.poc with
  | lsb n => simp
  | frameNum => simp
  | cycle z a b l => cases z <;> simp

theorem reads_header (s : Sps) (p : Spec.Pps) (e : Option Slice.Ext) (nalType : Nat) (old : Bool) (x : Slice) (ok : SliceOk s x) (hold : s.frameMbsOnly = true → p.picOrder = true → old = false) :
    ∃ tail, Reads (sliceHeader (members s) (ppsMembers p e) nalType old) tail (headerMembers s p nalType x) ∧
      sliceBits s p nalType x = tail ++ (if x.type < 5 then [] else
        (if x.type % 5 = 1 then flagBits x.direct else []) ++
        (if x.type % 5 = 0 ∨ x.type % 5 = 1 ∨ x.type % 5 = 3 then
          optBits (fun n => ueBits n.1 ++ (if x.type % 5 = 1 then ueBits n.2 else [])) x.override else [])) := by
  refine ⟨ueBits x.firstMb ++ (ueBits x.type ++ (ueBits x.ppsId ++ (bits (s.log2MaxFrameNumMinus4 + 4) x.frameNum ++
    ((if s.frameMbsOnly then [] else optBits flagBits x.picture) ++ ((if nalType = 5 then ueBits x.idrPicId else []) ++
      ((match s.poc with | .lsb n => bits (n + 4) x.pocLsb | _ => []) ++
      ((match s.poc with | .lsb _ => if p.picOrder && x.picture.isNone then seBits x.deltaBottom else [] | _ => []) ++
      ((match s.poc with | .cycle z _ _ _ => if z then [] else seBits x.delta0 | _ => []) ++
       ((match s.poc with | .cycle z _ _ _ => if z then [] else (if p.picOrder && x.picture.isNone then seBits x.delta1 else []) | _ => []) ++
      ((if p.redundant then ueBits x.redundant else []) ++ ((if x.type = 1 then flagBits x.direct else []) ++
        (if x.type = 0 ∨ x.type = 1 ∨ x.type = 3 then
          optBits (fun n => ueBits n.1 ++ (if x.type = 1 then ueBits n.2 else [])) x.override else [])))))))))))), ?_, ?_⟩
  · have hfield : ∀ c : Bool, (p.picOrder && !(match (if s.frameMbsOnly then none else some (x.picture.isSome, x.picture)) with | some y => y.1 | none => old)) = (p.picOrder && x.picture.isNone) := by
      intro _
      cases hf : s.frameMbsOnly with
      | true =>
        have hp := ok.picture hf
        cases hpo : p.picOrder with
        | true => simp [hold hf hpo, hp]
        | false => simp
      | false => cases hx : x.picture <;> simp
    refine Reads.bind (reads_ue _ ok.firstMb) (Reads.bind (reads_ue _ (by have := ok.type; omega)) (Reads.bind (reads_ue _ ok.ppsId) ?_))
    refine Reads.bind (reads_u _ _ (by omega) (by have := ok.log2; show s.log2MaxFrameNumMinus4 + 4 ≤ 32; omega) ok.frameNum) ?_
    refine Reads.bind (v := if s.frameMbsOnly then none else some (x.picture.isSome, x.picture)) ?_ ?_
    · show Reads (opt (!s.frameMbsOnly) fieldFlags) _ _
      refine reads_if (!s.frameMbsOnly) (b := optBits flagBits x.picture) (v := (x.picture.isSome, x.picture)) (fun _ => ?_) (by cases s.frameMbsOnly <;> rfl) (by cases s.frameMbsOnly <;> rfl)
      cases hx : x.picture with
      | none => exact Reads.bind (b := [false]) (c := []) (reads_flag false) (Reads.map _ reads_opt_none)
      | some b => exact Reads.bind (b := [true]) (reads_flag true) (Reads.map _ (reads_opt_some (reads_flag b)))
    refine Reads.bind (v := if nalType = 5 then some x.idrPicId else none) (reads_if (decide (nalType = 5)) (fun _ => reads_ue x.idrPicId ok.idrPicId) (by simp) (by simp)) ?_
    refine Reads.bind (v := match s.poc with | .lsb _ => some x.pocLsb | _ => none) ?_ ?_
    · show Reads (opt (decide ((pocMembers s.poc).type = 0)) (u ((pocMembers s.poc).lsb.getD 0 + 4))) _ _
      cases hp : s.poc with
      | lsb n =>
        obtain ⟨h1, h2⟩ := ok.lsb n hp
        exact reads_opt_some (reads_u (n + 4) _ (by omega) (by omega) h2)
      | frameNum => exact reads_opt_none
      | cycle z a b l => exact reads_opt_none
    refine Reads.bind (v := match s.poc with | .lsb _ => if p.picOrder && x.picture.isNone then some x.deltaBottom else none | _ => none) ?_ ?_
    · show Reads (opt (decide ((pocMembers s.poc).type = 0) && (p.picOrder && !(match (if s.frameMbsOnly then none else some (x.picture.isSome, x.picture)) with | some y => y.1 | none => old))) se) _ _
      rw [hfield true]
      cases hp : s.poc with
      | lsb n => exact reads_if (p.picOrder && x.picture.isNone) (fun _ => reads_se _ ok.deltaBottom) rfl rfl
      | frameNum => exact reads_opt_none
      | cycle z a b l => exact reads_opt_none
    refine Reads.bind (v := match s.poc with | .cycle z _ _ _ => if z then none else some x.delta0 | _ => none) ?_ ?_
    · show Reads (opt (decide ((pocMembers s.poc).type = 1) && !((pocMembers s.poc).alwaysZero.getD false)) se) _ _
      cases hp : s.poc with
      | lsb n => exact reads_opt_none
      | frameNum => exact reads_opt_none
      | cycle z a b l =>
        cases z with
        | true => exact reads_opt_none
        | false => exact reads_opt_some (reads_se _ ok.delta0)
    refine Reads.bind (v := match s.poc with | .cycle z _ _ _ => if z then none else (if p.picOrder && x.picture.isNone then some x.delta1 else none) | _ => none) ?_ ?_
    · show Reads (opt ((decide ((pocMembers s.poc).type = 1) && !((pocMembers s.poc).alwaysZero.getD false)) && (p.picOrder && !(match (if s.frameMbsOnly then none else some (x.picture.isSome, x.picture)) with | some y => y.1 | none => old))) se) _ _
      rw [hfield true]
      cases hp : s.poc with
      | lsb n => exact reads_opt_none
      | frameNum => exact reads_opt_none
      | cycle z a b l =>
        cases z with
        | true => exact reads_opt_none
        | false => exact reads_if (p.picOrder && x.picture.isNone) (fun _ => reads_se _ ok.delta1) rfl rfl
    refine Reads.bind (v := if p.redundant then some x.redundant else none) (reads_if p.redundant (fun _ => reads_ue _ ok.redundant) rfl rfl) ?_
    refine Reads.bind (v := if x.type = 1 then some x.direct else none) (reads_if (decide (x.type = 1)) (fun _ => reads_flag x.direct) (by simp) (by simp)) ?_
    have hov : Reads (opt (decide (x.type = 0) || decide (x.type = 3) || decide (x.type = 1)) (overrides x.type))
        (if x.type = 0 ∨ x.type = 1 ∨ x.type = 3 then optBits (fun n => ueBits n.1 ++ (if x.type = 1 then ueBits n.2 else [])) x.override else [])
        (if x.type = 0 ∨ x.type = 1 ∨ x.type = 3 then
          some (x.override.isSome, (match x.override with | some n => n.1 | none => 0), (if x.type = 1 then (match x.override with | some n => n.2 | none => 0) else 0)) else none) := by
      refine reads_if (decide (x.type = 0) || decide (x.type = 3) || decide (x.type = 1)) (b := optBits (fun n => ueBits n.1 ++ (if x.type = 1 then ueBits n.2 else [])) x.override)
        (v := (x.override.isSome, (match x.override with | some n => n.1 | none => 0), (if x.type = 1 then (match x.override with | some n => n.2 | none => 0) else 0)))
        (fun _ => ?_) ?_ ?_
      · cases ho : x.override with
        | none =>
          have := Reads.bind (b := [false]) (c := []) (f := fun o => (do let a ← opt o ue; let b ← opt (o && decide (x.type = 1)) ue; return (o, a.getD 0, b.getD 0) : Parser (Bool × Nat × Nat)))
            (reads_flag false) (w := (false, 0, 0)) (Reads.bind (b := []) (c := []) (reads_opt_none (p := ue)) (Reads.map _ (reads_opt_none (p := ue))))
          simp only [Option.isSome_none, ite_self]
          exact this
        | some n =>
          obtain ⟨h1, h2⟩ := ok.override n ho
          have h := reads_if (p := ue) (decide (x.type = 1)) (fun _ => reads_ue n.2 h2) (b' := if x.type = 1 then ueBits n.2 else []) (by simp) (v' := if x.type = 1 then some n.2 else none) (by simp)
          have h' := Reads.map (fun b : Option Nat => (true, n.1, b.getD 0)) h
          have := Reads.bind (b := [true]) (f := fun o => (do let a ← opt o ue; let b ← opt (o && decide (x.type = 1)) ue; return (o, a.getD 0, b.getD 0) : Parser (Bool × Nat × Nat)))
            (reads_flag true) (Reads.bind (reads_opt_some (reads_ue n.1 h1)) h')
          have hv : (true, n.1, (if x.type = 1 then some n.2 else none).getD 0) = ((some n).isSome, n.1, (if x.type = 1 then n.2 else 0)) := by
            by_cases h : x.type = 1 <;> simp [h]
          rw [hv] at this
          exact this
      · by_cases h0 : x.type = 0 <;> by_cases h1 : x.type = 1 <;> by_cases h3 : x.type = 3 <;> simp [h0, h1, h3]
      · by_cases h0 : x.type = 0 <;> by_cases h1 : x.type = 1 <;> by_cases h3 : x.type = 3 <;> simp [h0, h1, h3]
    have hfin := Reads.map (fun ov => (⟨x.firstMb, x.type, x.ppsId, x.frameNum, (if s.frameMbsOnly then none else some (x.picture.isSome, x.picture)).map (·.1),
      (if s.frameMbsOnly then none else some (x.picture.isSome, x.picture)).bind (·.2), (if nalType = 5 then some x.idrPicId else none).getD 0,
      (match s.poc with | .lsb _ => some x.pocLsb | _ => none).getD 0,
      (match s.poc with | .lsb _ => if p.picOrder && x.picture.isNone then some x.deltaBottom else none | _ => none).getD 0,
      (match s.poc with | .cycle z _ _ _ => if z then none else some x.delta0 | _ => none),
      (match s.poc with | .cycle z _ _ _ => if z then none else (if p.picOrder && x.picture.isNone then some x.delta1 else none) | _ => none),
      (if p.redundant then some x.redundant else none).getD 0, (if x.type = 1 then some x.direct else none),
      ov.map (·.1), (ov.map (·.2.1)).getD 0, (ov.map (·.2.2)).getD 0⟩ : Header)) hov
    convert hfin using 1
    unfold headerMembers
    simp only [Header.mk.injEq, true_and]
    refine ⟨?_, ?_, ?_, ?_, ?_, ?_, ?_, ?_, ?_, ?_, ?_⟩
    · cases s.frameMbsOnly <;> rfl
    · cases s.frameMbsOnly <;> rfl
    · split <;> rfl
    · cases s.poc <;> rfl
    · cases s.poc with
      | lsb n => by_cases h : (p.picOrder && x.picture.isNone) = true <;> simp [h]
      | cycle z a b l => rfl
      | frameNum => rfl
    · cases s.poc with
      | cycle z a b l => cases z <;> rfl
      | lsb n => rfl
      | frameNum => rfl
    · cases s.poc with
      | cycle z a b l => cases z <;> simp
      | lsb n => rfl
      | frameNum => rfl
    · cases p.redundant <;> rfl
    · by_cases h : x.type = 0 ∨ x.type = 1 ∨ x.type = 3 <;> simp [h]
    · clear hov hfield hfin
      cases x.override <;> by_cases h : x.type = 0 ∨ x.type = 1 ∨ x.type = 3 <;> simp [h]
    · clear hov hfield hfin
      cases x.override <;> by_cases h1 : x.type = 1 <;> by_cases h : x.type = 0 ∨ x.type = 1 ∨ x.type = 3 <;> simp [h, h1] <;> simp_all
  · unfold sliceBits
    rw [order_pieces, ok.plane]
    have ht := ok.type
    by_cases h5 : x.type < 5
    · have hm : x.type % 5 = x.type := Nat.mod_eq_of_lt h5
      rw [hm]
      simp only [h5, if_true, List.append_assoc, List.append_nil, Bool.false_eq_true, if_false, List.nil_append]
    · have h0 : ¬ x.type = 0 := by omega
      have h1 : ¬ x.type = 1 := by omega
      have h3 : ¬ x.type = 3 := by omega
      simp only [h5, h0, h1, h3, if_false, or_self, List.append_assoc, List.append_nil, Bool.false_eq_true, List.nil_append]

/-- C157: the header of every slice (its NAL unit was decoded, `rest` is the remaining slice header and data) is read as it was written; for slice types of 5 and more the direct flag and the numbers of reference pictures are not read. -/
theorem slice_read_partial (s : Sps) (p : Spec.Pps) (e : Option Slice.Ext) (nalType : Nat) (old : Bool) (x : Slice) (ok : SliceOk s x)
    (hold : s.frameMbsOnly = true → p.picOrder = true → old = false) (rest : List Bool) (l : List Byte) (hl : l.length < 2 ^ 29) (hb : Bytes l (sliceBits s p nalType x ++ rest)) (beyond : Mem) :
    ∃ r, sliceHeader (members s) (ppsMembers p e) nalType old (rInit l beyond) = .ok (headerMembers s p nalType x, r) := by
  obtain ⟨tail, h1, h2⟩ := reads_header s p e nalType old x ok hold
  rw [h2, List.append_assoc] at hb
  obtain ⟨r, h, -⟩ := h1 _ _ (at_init l _ hb hl beyond)
  exact ⟨r, h⟩

end Verif.Slice

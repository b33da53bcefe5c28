import Verif.H264.Lemmas
import Verif.H264.Expected
import Verif.H264.PropsNal

namespace Verif.H264
open Verif.BitStream (Byte Word Mem RErr RState rInit getbits nextbits skipbits bitAt)
open Spec

/-- C41 (partial: codes below 2^31 - 1). Reading a code written for a number gives the number and takes exactly the code, whatever follows and
wherever it is. -/
theorem ue_read_partial (v : Nat) (hv : v + 1 < 2 ^ 31) (s : RState) (rest : List Bool) (hs : At s (ueBits v ++ rest)) :
    ∃ s', ue s = .ok (v, s') ∧ At s' rest ∧ s'.cur = s.cur + (ueBits v).length := reads_ue v hv s rest hs

/-- C41 (partial: numbers up to 2^23). -/
theorem se_read_partial (v : Int) (hv : v.natAbs ≤ 2 ^ 23) (s : RState) (rest : List Bool) (hs : At s (seBits v ++ rest)) :
    ∃ s', se s = .ok (v, s') ∧ At s' rest ∧ s'.cur = s.cur + (seBits v).length := reads_se v hv s rest hs

/-- The start of a byte string meets the hypothesis of the two theorems. -/
theorem at_init (l : List Byte) (b : List Bool) (h : Bytes l b) (hl : l.length < 2 ^ 29) (beyond : Mem) : At (rInit l beyond) b := by
  have hb : Verif.BitStream.Spec.bytesBits l = b := by
    rw [← h, Verif.BitStream.Spec.bytesBits]
    congr 1
  have hlen := Verif.BitStream.bytesBits_length l
  rw [hb] at hlen
  refine ⟨hl, by simp [rInit, hlen], ?_, rfl⟩
  rw [hlen, ← hb, ← Verif.BitStream.rInit_bits l beyond]
  apply List.map_congr_left
  intro i _
  simp [rInit]

example : Bytes [0x2b] (ueBits 4 ++ (seBits (-1) ++ [])) := by decide +kernel

/-- C41: 2^23 + 1 is read as -2^23: the number is converted to a 24 bit float. -/
theorem se_witness : Bytes [0x00, 0x00, 0x00, 0x80, 0x00, 0x01, 0x00] (seBits (2 ^ 23 + 1) ++ List.replicate 7 false) ∧
    ((se (rInit [0x00, 0x00, 0x00, 0x80, 0x00, 0x01, 0x00] (fun _ => 0))).toOption.map (·.1)) = some (-(2 ^ 23)) := by decide +kernel

/-- C41: 2^31 - 1 and above are not read (the conversion of 2^31 to `int` is undefined). -/
theorem ue_witness : Bytes [0x00, 0x00, 0x00, 0x01, 0x00, 0x00, 0x00, 0x00] (ueBits (2 ^ 31 - 1) ++ [false]) ∧
    ((ue (rInit [0x00, 0x00, 0x00, 0x01, 0x00, 0x00, 0x00, 0x00] (fun _ => 0))).toOption.map (·.1)) = none := by decide +kernel

/-! ### Parts -/

theorem reads_opt_some {α : Type} {p : Parser α} {b : List Bool} {v : α} (h : Reads p b v) : Reads (opt true p) b (some v) := Reads.map some h

theorem reads_opt_none {α : Type} {p : Parser α} : Reads (opt false p) [] none := Reads.pure none

theorem reads_opt {α : Type} {p : Parser α} {b : List Bool} {v : α} (c : Bool) (h : c = true → Reads p b v) :
    Reads (opt c p) (if c then b else []) (if c then some v else none) := by
  cases c with
  | true => exact reads_opt_some (h rfl)
  | false => exact reads_opt_none

theorem reads_optional {α β : Type} {p : Parser β} (f : α → List Bool) (g : α → β) (o : Option α) (h : ∀ x, o = some x → Reads p (f x) (g x)) :
    Reads (optional p) (optBits f o) (o.map g) := by
  cases o with
  | none => exact Reads.bind (b := [false]) (c := []) (reads_flag false) reads_opt_none
  | some x => exact Reads.bind (b := [true]) (reads_flag true) (reads_opt_some (h x rfl))

theorem reads_many {α β : Type} {p : Parser β} (f : α → List Bool) (g : α → β) : ∀ (xs : List α), (∀ x ∈ xs, Reads p (f x) (g x)) →
    Reads (many p xs.length) (xs.flatMap f) (xs.map g) := by
  intro xs
  induction xs with
  | nil => intro _; exact Reads.pure _
  | cons x xs ih =>
    intro h
    rw [List.flatMap_cons, List.map_cons]
    exact Reads.bind (h x (by simp)) (Reads.map _ (ih fun y hy => h y (by simp [hy])))

theorem reads_cpb (x : Nat × Nat × Bool) (h : UOk x.1 ∧ UOk x.2.1) : Reads cpbEntry (cpbBits x) x :=
  Reads.bind (reads_ue _ h.1) (Reads.bind (reads_ue _ h.2) (Reads.map _ (reads_flag _)))

theorem reads_hrd (h : Spec.Hrd) (ok : HrdOk h) : Reads hrd (hrdBits h) (hrdMembers h) := by
  obtain ⟨h1, h2, h3, h4, h5, h6, h7, h8⟩ := ok
  refine Reads.bind (reads_ue _ (by omega)) ?_
  dsimp only
  rw [if_neg (by omega)]
  refine Reads.bind (reads_u 4 _ (by omega) (by omega) h2) (Reads.bind (reads_u 4 _ (by omega) (by omega) h3) ?_)
  have hm := reads_many (p := cpbEntry) cpbBits id (h.cpb.1 :: h.cpb.2) (fun x hx => reads_cpb x (h4 x hx))
  rw [List.map_id] at hm
  refine Reads.bind hm ?_
  exact Reads.bind (reads_u 5 _ (by omega) (by omega) h5) (Reads.bind (reads_u 5 _ (by omega) (by omega) h6)
    (Reads.bind (reads_u 5 _ (by omega) (by omega) h7) (Reads.map _ (reads_u 5 _ (by omega) (by omega) h8))))

theorem reads_aspect (a : Aspect) (ok : AspectOk a) : Reads aspect (aspectBits a) (aspectMembers a) := by
  cases a with
  | idc n =>
    have h1 := reads_u 8 n (by omega) (by omega) (by have : n < 255 := ok; omega)
    have : Reads aspect (bits 8 n ++ []) (n, none) := by
      refine Reads.bind h1 ?_
      have hn : decide (n = 255) = false := by have : n < 255 := ok; simp; omega
      rw [hn]
      exact Reads.map _ reads_opt_none
    rw [List.append_nil] at this
    exact this
  | sar w h =>
    refine Reads.bind (reads_u 8 255 (by omega) (by omega) (by omega)) ?_
    exact Reads.map _ (reads_opt_some (Reads.bind (reads_u 16 w (by omega) (by omega) ok.1) (Reads.map _ (reads_u 16 h (by omega) (by omega) ok.2))))

theorem reads_signal (x : Signal) (ok : SignalOk x) : Reads videoSignal (signalBits x) (x.format, x.fullRange, x.colour) := by
  refine Reads.bind (reads_u 3 _ (by omega) (by omega) ok.1) (Reads.bind (reads_flag _) ?_)
  have hc := ok.2
  generalize x.colour = o at hc ⊢
  cases o with
  | none => exact Reads.bind (b := [false]) (c := []) (reads_flag false) (Reads.map _ reads_opt_none)
  | some c =>
    obtain ⟨h1, h2, h3⟩ := hc c rfl
    exact Reads.bind (b := [true]) (reads_flag true) (Reads.map _ (reads_opt_some (Reads.bind (reads_u 8 _ (by omega) (by omega) h1)
      (Reads.bind (reads_u 8 _ (by omega) (by omega) h2) (Reads.map _ (reads_u 8 _ (by omega) (by omega) h3))))))

theorem reads_restriction (r : Restriction) (ok : RestrictionOk r) :
    Reads restriction (restrictionBits r) (r.overBoundaries, [r.maxBytes, r.maxBits, r.mvHorizontal, r.mvVertical, r.reorder, r.buffering]) := by
  obtain ⟨h1, h2, h3, h4, h5, h6⟩ := ok
  refine Reads.bind (reads_flag _) ?_
  have := reads_many (p := ue) ueBits id [r.maxBytes, r.maxBits, r.mvHorizontal, r.mvVertical, r.reorder, r.buffering] (by
    intro x hx
    simp only [List.mem_cons, List.not_mem_nil, or_false] at hx
    rcases hx with rfl | rfl | rfl | rfl | rfl | rfl
    · exact reads_ue _ h1
    · exact reads_ue _ h2
    · exact reads_ue _ h3
    · exact reads_ue _ h4
    · exact reads_ue _ h5
    · exact reads_ue _ h6)
  have := Reads.map (fun l => (r.overBoundaries, l)) this
  simpa [List.flatMap_cons, List.flatMap_nil] using this

theorem reads_vui (v : Spec.Vui) (ok : VuiOk v) : Reads vui (vuiBits v) (vuiMembers v) := by
  obtain ⟨h1, h2, h3, h4, h5, h6, h7⟩ := ok
  have hid : ∀ {α : Type} (o : Option α), o.map (fun x => x) = o := fun o => by cases o <;> rfl
  refine Reads.bind (reads_optional aspectBits aspectMembers v.aspect fun x hx => reads_aspect x (h1 x hx)) ?_
  refine Reads.bind (reads_optional flagBits (fun x => x) v.overscan fun x _ => reads_flag x) ?_
  refine Reads.bind (reads_optional signalBits (fun x => (x.format, x.fullRange, x.colour)) v.signal fun x hx => reads_signal x (h2 x hx)) ?_
  refine Reads.bind (reads_optional chromaLocBits (fun x => x) v.chromaLoc fun x hx =>
    Reads.bind (reads_ue _ (h3 x hx).1) (Reads.map _ (reads_ue _ (h3 x hx).2))) ?_
  refine Reads.bind (reads_optional timingBits (fun x => x) v.timing fun x hx =>
    Reads.bind (reads_u 32 _ (by omega) (by omega) (h4 x hx).1) (Reads.bind (reads_u 32 _ (by omega) (by omega) (h4 x hx).2) (Reads.map _ (reads_flag _)))) ?_
  refine Reads.bind (reads_optional hrdBits hrdMembers v.nalHrd fun x hx => reads_hrd x (h5 x hx)) ?_
  refine Reads.bind (reads_optional hrdBits hrdMembers v.vclHrd fun x hx => reads_hrd x (h6 x hx)) ?_
  have hsome : ((v.nalHrd.map hrdMembers).isSome || (v.vclHrd.map hrdMembers).isSome) = (v.nalHrd.isSome || v.vclHrd.isSome) := by simp
  refine Reads.bind (v := if v.nalHrd.isSome || v.vclHrd.isSome then some v.lowDelay else none) ?_ ?_
  · rw [hsome]
    exact reads_opt _ fun _ => reads_flag _
  · refine Reads.bind (reads_flag _) ?_
    have := Reads.map (fun r => (⟨v.aspect.map aspectMembers, v.overscan.map fun x => x, v.signal.map fun x => (x.format, x.fullRange, x.colour),
      v.chromaLoc.map fun x => x, v.timing.map fun x => x, v.nalHrd.map hrdMembers, v.vclHrd.map hrdMembers,
      if v.nalHrd.isSome || v.vclHrd.isSome then some v.lowDelay else none, v.picStruct, r⟩ : H264.Vui))
      (reads_optional restrictionBits (fun r : Restriction => (r.overBoundaries, [r.maxBytes, r.maxBits, r.mvHorizontal, r.mvVertical, r.reorder, r.buffering])) v.restriction
        fun x hx => reads_restriction x (h7 x hx))
    simp only [hid] at this ⊢
    exact this

theorem reads_high (h : Spec.High) (ok : HighOk h) : Reads high (highBits h) (highMembers h) := by
  obtain ⟨h1, h2, h3⟩ := ok
  refine Reads.bind (reads_ue _ h1) ?_
  refine Reads.bind (b := if h.chromaFormatIdc = 3 then flagBits h.separateColourPlane else [])
    (v := if h.chromaFormatIdc = 3 then some h.separateColourPlane else none) ?_ ?_
  · have := reads_opt (p := flag) (b := flagBits h.separateColourPlane) (v := h.separateColourPlane) (decide (h.chromaFormatIdc = 3)) fun _ => reads_flag _
    simpa using this
  · exact Reads.bind (reads_ue _ h2) (Reads.bind (reads_ue _ h3) (Reads.bind (reads_flag _) (Reads.map _ (reads_flag false))))

theorem reads_poc (p : Spec.Poc) (ok : PocOk p) : Reads poc (pocBits p) (pocMembers p) := by
  cases p with
  | lsb n =>
    refine Reads.bind (reads_ue 0 (by omega)) ?_
    exact Reads.map _ (reads_ue n ok)
  | frameNum =>
    have : Reads poc (ueBits 2 ++ []) ⟨2, none, none, 0, 0, []⟩ := Reads.bind (reads_ue 2 (by omega)) (Reads.pure _)
    rw [List.append_nil] at this
    exact this
  | cycle z a b l =>
    obtain ⟨h1, h2, h3, h4⟩ := ok
    refine Reads.bind (reads_ue 1 (by omega)) ?_
    refine Reads.bind (reads_flag z) (Reads.bind (reads_se a h1) (Reads.bind (reads_se b h2) (Reads.bind (reads_ue _ h3) ?_)))
    have := reads_many (p := se) seBits id l fun x hx => reads_se x (h4 x hx)
    rw [List.map_id] at this
    exact Reads.map _ this

theorem reads_crop (c : Crop) (ok : CropOk c) : Reads crop (cropBits c) (c.left, c.right, c.top, c.bottom) :=
  Reads.bind (reads_ue _ ok.1) (Reads.bind (reads_ue _ ok.2.1) (Reads.bind (reads_ue _ ok.2.2.1) (Reads.map _ (reads_ue _ ok.2.2.2))))

theorem reads_data (s : Sps) (ok : SpsOk s) : Reads sequenceData (spsData s) (members s) := by
  obtain ⟨⟨h1, hp⟩, h2, h3, h4, h5, h6, h7, h8, h9, h10, h11, h12⟩ := ok
  refine Reads.bind (reads_u 8 _ (by omega) (by omega) h1) ?_
  refine Reads.bind (reads_flag _) (Reads.bind (reads_flag _) (Reads.bind (reads_flag _) (Reads.bind (reads_flag _) ?_)))
  refine Reads.bind (reads_u 4 _ (by omega) (by omega) h2) (Reads.bind (reads_u 8 _ (by omega) (by omega) h3) (Reads.bind (reads_ue _ h4) ?_))
  refine Reads.bind (b := if s.profileIdc ∈ highProfiles then highBits s.high else [])
    (v := if s.profileIdc ∈ highProfiles then some (highMembers s.high) else none) ?_ ?_
  · have := reads_opt (p := high) (decide (100 ≤ s.profileIdc)) fun _ => reads_high s.high h5
    simp only [decide_eq_true_eq] at this
    simp only [hp]
    exact this
  refine Reads.bind (reads_ue _ h6) (Reads.bind (reads_poc _ h7) (Reads.bind (reads_ue _ h8) (Reads.bind (reads_flag _)
    (Reads.bind (reads_ue _ h9) (Reads.bind (reads_ue _ h10) (Reads.bind (reads_flag _) ?_))))))
  refine Reads.bind (b := if s.frameMbsOnly then [] else flagBits s.mbAdaptiveFrameField)
    (v := if s.frameMbsOnly then none else some s.mbAdaptiveFrameField) ?_ ?_
  · have := reads_opt (p := flag) (b := flagBits s.mbAdaptiveFrameField) (v := s.mbAdaptiveFrameField) (!s.frameMbsOnly) fun _ => reads_flag _
    cases hf : s.frameMbsOnly <;> simpa [hf] using this
  refine Reads.bind (reads_flag _) ?_
  refine Reads.bind (reads_optional cropBits (fun c => (c.left, c.right, c.top, c.bottom)) s.crop fun c hc => reads_crop c (h11 c hc)) ?_
  exact Reads.map _ (reads_optional vuiBits vuiMembers s.vui fun v hv => reads_vui v (h12 v hv))

/-- The whole parameter set, with the trailing bits. -/
theorem sequence_read (s : Sps) (ok : SpsOk s) (l : List Byte) (hl : l.length < 2 ^ 29) (hb : Bytes l (spsBits s)) (beyond : Mem) :
    ∃ r, sequence (rInit l beyond) = .ok (members s, r) ∧ r.cur = 8 * l.length := by
  have h0 := at_init l _ hb hl beyond
  obtain ⟨s1, k1, k2, k3⟩ := reads_data s ok (rInit l beyond) (trailingBits (spsData s).length) h0
  have k3' : s1.cur = (spsData s).length := by rw [k3]; simp [rInit]
  have k2' : At s1 ([true] ++ List.replicate (7 - (spsData s).length % 8) false) := k2
  obtain ⟨s2, t1, t2, t3⟩ := reads_flag true s1 _ k2'
  have hcur : s2.cur = (spsData s).length + 1 := by rw [t3, k3']; rfl
  have htot : s2.tot = (spsData s).length + 1 := by rw [t2.tot, hcur]
  have hlen := t2.pos
  rw [List.length_replicate, hcur] at hlen
  -- the length of the memory does not change
  have hl2 : s2.len = l.length := by
    have e1 := h0.pos
    have e2 : (rInit l beyond).len = l.length := rfl
    have e3 : (rInit l beyond).cur = 0 := rfl
    rw [e2, e3, spsBits] at e1
    simp only [trailingBits, List.length_append, List.length_cons, List.length_replicate] at e1
    omega
  have hseq : sequence (rInit l beyond) = .ok (members s, if s2.tot % 8 ≠ 0 then skipbits s2 (8 - s2.tot % 8) else s2) := by
    unfold sequence
    simp only [bind, StateT.bind, Except.bind, k1, trailing, t1]
    rfl
  refine ⟨_, hseq, ?_⟩
  split
  · simp only [skipbits]
    rw [if_neg (by omega)]
    show s2.cur + _ = _
    rw [hcur, htot]
    omega
  · rw [hcur]; omega

/-- C80 (partial: no scaling matrix, codes in the range of C41, not one of the profiles 44, 83 and 86). A sequence parameter set NAL unit that an
encoder wrote according to the standard is parsed to its values. -/
theorem sps_read_partial (s : Sps) (ok : SpsOk s) (nal : List Byte) (hn : IsSpsNal nal s) (hl : nal.length < 2 ^ 29)
    (h3 : ∀ payload, Bytes payload (spsBits s) → payload.getLast? ≠ some 3) (beyond : Mem) : parseSps beyond nal = .ok (members s) := by
  obtain ⟨ref, payload, hr0, hr, hb, rfl⟩ := hn
  have hd := nal_roundtrip_partial ref 7 hr (by omega) payload (h3 payload hb)
  have hesc : ∀ (p : List Byte) (z : Nat), p.length ≤ (escapeFrom z p).length := by
    intro p
    induction p with
    | nil => intro z; simp
    | cons b p ih =>
      intro z
      simp only [escapeFrom]
      split
      · have := ih (if b = 0 then 1 else 0); simp only [List.length_cons]; omega
      · have := ih (if b = 0 then z + 1 else 0); simp only [List.length_cons]; omega
  have hpl : payload.length < 2 ^ 29 := by
    have := hesc payload 0
    simp only [List.length_cons, escape, List.length_append] at hl
    omega
  obtain ⟨r, hr1, _⟩ := sequence_read s ok payload hpl hb beyond
  simp only [parseSps, hd, List.drop_succ_cons, List.drop_zero, hr1]

theorem ends_app {b : List Bool} (a : List Bool) (h : ∃ d, b = d ++ [false]) : ∃ d, a ++ b = d ++ [false] := by
  obtain ⟨d, rfl⟩ := h
  exact ⟨a ++ d, by rw [List.append_assoc]⟩

theorem ends_cons {b : List Bool} (a : Bool) (h : ∃ d, b = d ++ [false]) : ∃ d, a :: b = d ++ [false] := ends_app [a] h

/-- The condition on the last byte is met by every parameter set without bitstream restriction: there the bit before the stop bit is 0. -/
theorem sps_last (s : Sps) (h : ∀ v, s.vui = some v → v.restriction = none) (payload : List Byte) (hb : Bytes payload (spsBits s)) :
    payload.getLast? ≠ some 3 := by
  intro h3
  obtain ⟨p, rfl⟩ : ∃ p, payload = p ++ [3] := by
    cases payload using List.reverseRecOn with
    | nil => simp at h3
    | append_singleton p x => simp at h3; exact ⟨p, by rw [h3]; rfl⟩
  have e1 : ∃ d, spsData s = d ++ [false] := by
    have : ∃ d, optBits vuiBits s.vui = d ++ [false] := by
      cases hv : s.vui with
      | none => exact ⟨[], rfl⟩
      | some v =>
        have hr : optBits restrictionBits v.restriction = [] ++ [false] := by rw [h v hv]; rfl
        rw [optBits, vuiBits]
        exact ends_cons _ (ends_app _ (ends_app _ (ends_app _ (ends_app _ (ends_app _ (ends_app _ (ends_app _ (ends_app _ (ends_app _ ⟨_, hr⟩)))))))))
    rw [spsData]
    repeat first | exact this | apply ends_app
  obtain ⟨d, hd⟩ := e1
  have hb' : p.flatMap (fun x => bits 8 x.toNat) ++ [false, false, false, false, false, false] ++ [true, true] = spsBits s := by
    rw [← hb, List.flatMap_append, List.append_assoc]
    congr 1
  have hr := congrArg List.reverse hb'
  simp only [spsBits, hd, trailingBits, List.reverse_append, List.reverse_cons, List.reverse_nil, List.reverse_replicate, List.nil_append,
    List.append_assoc, List.cons_append] at hr
  generalize 7 - (d ++ [false]).length % 8 = k at hr
  cases k with
  | zero => simp at hr
  | succ k => simp [List.replicate_succ] at hr

/-- A parameter set of an encoder: high profile, level 4, 1920 by 1080 (cropped), with video usability information. -/
def exampleSps : Sps :=
  { profileIdc := 100, constraintSet0 := false, constraintSet1 := false, constraintSet2 := false, constraintSet3 := false, constraintRest := 0,
    levelIdc := 40, id := 0, high := ⟨1, false, 0, 0, false⟩, log2MaxFrameNumMinus4 := 0, poc := .lsb 2, maxNumRefFrames := 4, gapsAllowed := false,
    picWidthInMbsMinus1 := 119, picHeightInMapUnitsMinus1 := 67, frameMbsOnly := true, mbAdaptiveFrameField := false, direct8x8Inference := true,
    crop := some ⟨0, 0, 0, 4⟩,
    vui := some ⟨some (.sar 4 3), none, some ⟨5, false, some (1, 1, 1)⟩, none, some (1, 50, true), some ⟨2, 3, ((5, 6, true), [(7, 8, false)]), 9, 10, 11, 12⟩,
      none, true, false, some ⟨true, 0, 0, 11, 11, 2, 4⟩⟩ }

/-- Its payload and its NAL unit (there are escape bytes in it). -/
def examplePayload : List Byte :=
  [100, 0, 40, 172, 217, 64, 120, 2, 39, 229, 255, 192, 1, 0, 0, 218, 128, 128, 128, 160, 0, 0, 0, 32, 0, 0, 6, 90, 35, 49, 226, 4, 146, 165, 177,
    120, 193, 140, 176]

theorem exampleBytes : Bytes examplePayload (spsBits exampleSps) := by decide +kernel

theorem exampleNal : IsSpsNal (0x67 :: (examplePayload.take 22 ++ [3] ++ examplePayload.drop 22)) exampleSps :=
  ⟨3, examplePayload, by omega, by omega, exampleBytes, by decide +kernel⟩

theorem exampleOk : SpsOk exampleSps := by
  simp [SpsOk, exampleSps, ProfileOk, UOk, HighOk, PocOk, CropOk, VuiOk, AspectOk, SignalOk, HrdOk, RestrictionOk, highProfiles]

/-- The example meets the hypotheses of `sps_read_partial`. -/
example : SpsOk exampleSps ∧ IsSpsNal (0x67 :: (examplePayload.take 22 ++ [3] ++ examplePayload.drop 22)) exampleSps ∧
    ∀ payload, Bytes payload (spsBits exampleSps) → payload.getLast? ≠ some 3 := by
  refine ⟨exampleOk, exampleNal, fun payload hb h3 => ?_⟩
  have h := congrArg List.reverse hb
  rw [← exampleBytes] at h
  obtain ⟨p, rfl⟩ : ∃ p, payload = p ++ [3] := by
    cases payload using List.reverseRecOn with
    | nil => simp at h3
    | append_singleton p x => simp at h3; exact ⟨p, by rw [h3]; rfl⟩
  rw [List.flatMap_append, List.reverse_append] at h
  have h1 := congrArg List.head? h
  revert h1
  simp only [List.flatMap_singleton]
  have e1 : (bits 8 (3 : Byte).toNat).reverse = true :: [true, false, false, false, false, false, false] := by decide +kernel
  have e2 : (List.flatMap (fun x : Byte => bits 8 x.toNat) examplePayload).reverse.head? = some false := by decide +kernel
  rw [e1, e2]
  simp

end Verif.H264

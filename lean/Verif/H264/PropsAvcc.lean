import Verif.H264.PropsSps

namespace Verif.H264
open Verif.BitStream (Byte Word Mem RErr RState rInit)
open Spec

/-- A parameter set for 720 by 480 that ends in a byte 3. -/
def spsEndingInThree : Sps :=
  { profileIdc := 66, constraintSet0 := false, constraintSet1 := false, constraintSet2 := false, constraintSet3 := false, constraintRest := 0,
    levelIdc := 30, id := 0, high := ⟨1, false, 0, 0, false⟩, log2MaxFrameNumMinus4 := 0, poc := .frameNum, maxNumRefFrames := 0, gapsAllowed := false,
    picWidthInMbsMinus1 := 44, picHeightInMapUnitsMinus1 := 29, frameMbsOnly := true, mbAdaptiveFrameField := false, direct8x8Inference := true,
    crop := none, vui := some ⟨none, none, none, none, none, none, none, false, false, some ⟨true, 0, 0, 11, 11, 63, 0⟩⟩ }

/-- C80: it is rejected, because the last byte of the unit is taken for an escape byte. -/
theorem sps_ending_in_three : IsSpsNal [0x67, 66, 0, 30, 220, 11, 67, 218, 1, 227, 6, 1, 3] spsEndingInThree ∧
    (parseSps (fun _ => 0) [0x67, 66, 0, 30, 220, 11, 67, 218, 1, 227, 6, 1, 3]).toOption.isNone :=
  ⟨⟨3, [66, 0, 30, 220, 11, 67, 218, 1, 227, 6, 1, 3], by omega, by omega, by decide +kernel, by decide +kernel⟩, by decide +kernel⟩

/-- A parameter set of profile 44 (CAVLC 4:4:4 intra). -/
def sps44 : Sps :=
  { profileIdc := 44, constraintSet0 := false, constraintSet1 := false, constraintSet2 := false, constraintSet3 := true, constraintRest := 0,
    levelIdc := 30, id := 0, high := ⟨3, false, 0, 0, false⟩, log2MaxFrameNumMinus4 := 0, poc := .frameNum, maxNumRefFrames := 0, gapsAllowed := false,
    picWidthInMbsMinus1 := 44, picHeightInMapUnitsMinus1 := 29, frameMbsOnly := true, mbAdaptiveFrameField := false, direct8x8Inference := true,
    crop := none, vui := none }

/-- C80: its width comes out as 32 and not 720, because the chroma format of the profiles below 100 is not expected. -/
theorem sps_profile_44 : ∃ nal, IsSpsNal nal sps44 ∧ ((parseSps (fun _ => 0) nal).toOption.map width) ≠ some (frameWidth sps44) :=
  ⟨0x67 :: escape [44, 16, 30, 145, 151, 2, 208, 246, 64], ⟨3, [44, 16, 30, 145, 151, 2, 208, 246, 64], by omega, by omega, by decide +kernel, by decide +kernel⟩,
    by decide +kernel⟩

/-! ### Picture size -/

/-- C82 (partial: frames only, no cropping). The width and height that are found are those of the pictures. -/
theorem size_partial (s : Sps) (ok : SpsOk s) (nal pps : List Byte) (hn : IsSpsNal nal s) (hl : nal.length < 2 ^ 29)
    (h3 : ∀ payload, Bytes payload (spsBits s) → payload.getLast? ≠ some 3) (beyond : Mem)
    (hw : displayWidth s < 2 ^ 32) (hh : displayHeight s < 2 ^ 32) (hf : s.frameMbsOnly = true) (hc : s.crop = none) :
    ∃ bytes past, avccFromSpsAndPps beyond nal pps = .ok (bytes, displayWidth s, displayHeight s, past) := by
  have h := sps_read_partial s ok nal hn hl h3 beyond
  refine ⟨putAvcc (makeAvcc (members s) nal pps), (makeAvcc (members s) nal pps).overrun, ?_⟩
  rw [avccFromSpsAndPps, h]
  simp only [displayWidth, displayHeight, hc, frameWidth, frameHeight, hf, if_true, Nat.sub_zero, Nat.one_mul] at hw hh ⊢
  simp only [width, height, members, Nat.mod_eq_of_lt hw, Nat.mod_eq_of_lt hh]

/-- C82: whatever the parameter set, the sizes found are those of a frame without cropping, and the height that of a field if there are fields. -/
theorem size_found (s : Sps) (ok : SpsOk s) (nal pps : List Byte) (hn : IsSpsNal nal s) (hl : nal.length < 2 ^ 29)
    (h3 : ∀ payload, Bytes payload (spsBits s) → payload.getLast? ≠ some 3) (beyond : Mem)
    (hw : frameWidth s < 2 ^ 32) (hh : frameHeight s < 2 ^ 32) :
    ∃ bytes past, avccFromSpsAndPps beyond nal pps = .ok (bytes, frameWidth s, (if s.frameMbsOnly then frameHeight s else frameHeight s / 2), past) := by
  have h := sps_read_partial s ok nal hn hl h3 beyond
  refine ⟨putAvcc (makeAvcc (members s) nal pps), (makeAvcc (members s) nal pps).overrun, ?_⟩
  rw [avccFromSpsAndPps, h]
  have e : height (members s) = if s.frameMbsOnly then frameHeight s else frameHeight s / 2 := by
    simp only [frameHeight] at hh ⊢
    simp only [height, members]
    cases hf : s.frameMbsOnly <;> simp only [hf, if_true, Bool.false_eq_true, if_false] at hh ⊢
    · rw [Nat.mod_eq_of_lt (by omega), Nat.mul_div_cancel_left _ (by omega)]
    · rw [Nat.mod_eq_of_lt (by omega)]; omega
  have e2 : width (members s) = frameWidth s := by
    simp only [width, members, frameWidth] at hw ⊢
    exact Nat.mod_eq_of_lt hw
  rw [← e, ← e2]

/-- C82: 1080 lines are reported as 1088. -/
theorem size_witness : ∃ nal, IsSpsNal nal exampleSps ∧ displayWidth exampleSps = 1920 ∧ displayHeight exampleSps = 1080 ∧
    ((avccFromSpsAndPps (fun _ => 0) nal [0x68]).toOption.map fun x => (x.2.1, x.2.2.1)) = some (1920, 1088) :=
  ⟨_, exampleNal, by decide +kernel, by decide +kernel, by decide +kernel⟩

/-- A parameter set for interlaced video, 720 by 576. -/
def spsInterlaced : Sps :=
  { profileIdc := 77, constraintSet0 := false, constraintSet1 := true, constraintSet2 := false, constraintSet3 := false, constraintRest := 0,
    levelIdc := 30, id := 0, high := ⟨1, false, 0, 0, false⟩, log2MaxFrameNumMinus4 := 0, poc := .lsb 2, maxNumRefFrames := 4, gapsAllowed := false,
    picWidthInMbsMinus1 := 44, picHeightInMapUnitsMinus1 := 17, frameMbsOnly := false, mbAdaptiveFrameField := true, direct8x8Inference := true,
    crop := none, vui := none }

/-- C82: 576 interlaced lines are reported as 288. -/
theorem size_interlaced_witness : ∃ nal, IsSpsNal nal spsInterlaced ∧ displayWidth spsInterlaced = 720 ∧ displayHeight spsInterlaced = 576 ∧
    ((avccFromSpsAndPps (fun _ => 0) nal [0x68]).toOption.map fun x => (x.2.1, x.2.2.1)) = some (720, 288) :=
  ⟨0x67 :: escape [77, 64, 30, 236, 160, 90, 18, 100], ⟨3, [77, 64, 30, 236, 160, 90, 18, 100], by omega, by omega, by decide +kernel, by decide +kernel⟩,
    by decide +kernel, by decide +kernel, by decide +kernel⟩

/-! ### Decoder configuration -/

theorem be16_value (n : Nat) (h : n < 65536) : (BitVec.ofNat 8 (n / 256)).toNat * 256 + (BitVec.ofNat 8 n).toNat = n := by
  rw [BitVec.toNat_ofNat, BitVec.toNat_ofNat]
  omega

/-- Every parameter set is in the array in turn, the last one last. -/
theorem getSets_spec (tail : List Byte) : ∀ (sets : List (List Byte)) (old : List Byte), (∀ x ∈ sets, x.length < 65536) →
    getSets sets.length old (sets.flatMap setBytes ++ tail) = some (sets.map List.length, sets.foldl (fun a x => x ++ a.drop x.length) old,
      sets.any (fun x => decide (256 < x.length)), tail) := by
  intro sets
  induction sets with
  | nil => intro old _; rfl
  | cons x sets ih =>
    intro old h
    have hx := h x (by simp)
    simp only [List.flatMap_cons, setBytes, be16, List.cons_append, List.nil_append, List.length_cons, getSets, be16_value _ hx]
    rw [if_neg (by simp)]
    have e1 : List.take x.length (x ++ List.flatMap setBytes sets ++ tail) = x := by rw [List.append_assoc, List.take_left']; rfl
    have e2 : List.drop x.length (x ++ List.flatMap setBytes sets ++ tail) = List.flatMap setBytes sets ++ tail := by
      rw [List.append_assoc, List.drop_left']; rfl
    rw [e1, e2, ih _ fun y hy => h y (by simp [hy])]
    simp

/-- C81: a record with one sequence parameter set and one picture parameter set of up to 256 bytes, from any program, is read to its values. -/
theorem avcc_read_partial (r : Record) (ok : r.ok) (sps pps : List Byte) (h1 : r.sps = [sps]) (h2 : r.pps = [pps]) (hs : sps.length ≤ 256)
    (hp : pps.length ≤ 256) : ∃ m, getAvcc r.bytes = some m ∧ m.overrun = false ∧ m.profile = r.profile ∧ m.compatibility = r.compatibility ∧
      m.level = r.level ∧ m.lengthSizeMinusOne + 1 = r.lengthSize ∧ m.spsLengths.length = 1 ∧ m.ppsLengths.length = 1 ∧ m.sequence 0 = sps ∧
      m.picture 0 = pps := by
  obtain ⟨a1, a2, a3, a4, a5, a6, a7, a8, a9⟩ := ok
  have g1 := getSets_spec (BitVec.ofNat 8 1 :: ([pps].flatMap setBytes ++ r.extension)) [sps] [] (by simp; omega)
  have g2 := getSets_spec r.extension [pps] [] (by simp; omega)
  have e1 : (BitVec.ofNat 8 (224 + 1)).toNat % 32 = 1 := by decide
  have e2 : (BitVec.ofNat 8 1).toNat = 1 := by decide
  simp only [List.length_cons, List.length_nil, Nat.zero_add] at g1 g2
  have hb : getAvcc r.bytes = some ⟨r.profile, r.compatibility, r.level, r.lengthSize - 1, [sps.length], sps ++ [], [pps.length], pps ++ [],
      false⟩ := by
    simp only [Record.bytes, h1, h2, getAvcc, List.cons_append, List.nil_append, List.append_assoc, List.length_cons, List.length_nil, Nat.zero_add,
      e1]
    rw [g1]
    simp only [e2]
    rw [g2]
    simp only [List.map_cons, List.map_nil, List.any_cons, List.any_nil, List.foldl_cons, List.foldl_nil, List.drop_nil, BitVec.toNat_ofNat,
      Nat.mod_eq_of_lt a1, Nat.mod_eq_of_lt a2, Nat.mod_eq_of_lt a3, show ¬ 256 < sps.length by omega, show ¬ 256 < pps.length by omega,
      decide_false, Bool.or_false]
    congr 2
    omega
  refine ⟨_, hb, rfl, rfl, rfl, rfl, ?_, rfl, rfl, ?_, ?_⟩
  · show r.lengthSize - 1 + 1 = r.lengthSize; omega
  · simp [AvccMembers.sequence]
  · simp [AvccMembers.picture]

example : (⟨77, 64, 30, 4, [[0x67, 77, 64, 30]], [[0x68, 1]], []⟩ : Record).ok := by simp [Record.ok]

/-- C81: with two sequence parameter sets, neither is what `get_sequence` gives: the first is overwritten with the second. -/
theorem avcc_two_sets : ∃ (r : Record) (m : AvccMembers), r.ok ∧ r.sps = [[0x67, 1, 2], [0x67, 3]] ∧ getAvcc r.bytes = some m ∧
    m.sequence 0 = [0x67, 3, 2] ∧ m.sequence 1 = [0x67, 3] :=
  ⟨⟨77, 64, 30, 4, [[0x67, 1, 2], [0x67, 3]], [[0x68, 1]], []⟩, ⟨77, 64, 30, 3, [3, 2], [0x67, 3, 2], [2], [0x68, 1], false⟩, by simp [Record.ok], rfl,
    by decide +kernel, by decide +kernel, by decide +kernel⟩

/-- C81: a parameter set of more than 256 bytes (the length can be up to 65535) is written past the end of the array. -/
theorem avcc_overrun (r : Record) (ok : r.ok) (sps pps : List Byte) (h1 : r.sps = [sps]) (h2 : r.pps = [pps]) (hs : 256 < sps.length) :
    ∃ m, getAvcc r.bytes = some m ∧ m.overrun = true := by
  obtain ⟨a1, a2, a3, a4, a5, a6, a7, a8, a9⟩ := ok
  have g1 := getSets_spec (BitVec.ofNat 8 1 :: ([pps].flatMap setBytes ++ r.extension)) [sps] [] (by simpa [h1] using a8)
  have g2 := getSets_spec r.extension [pps] [] (by simpa [h2] using a9)
  have e1 : (BitVec.ofNat 8 (224 + 1)).toNat % 32 = 1 := by decide
  have e2 : (BitVec.ofNat 8 1).toNat = 1 := by decide
  simp only [List.length_cons, List.length_nil, Nat.zero_add] at g1 g2
  simp only [Record.bytes, h1, h2, getAvcc, List.cons_append, List.nil_append, List.append_assoc, List.length_cons, List.length_nil, Nat.zero_add, e1]
  rw [g1]
  simp only [e2]
  rw [g2]
  exact ⟨_, rfl, by simp [hs]⟩

theorem compat_bits (a b c d : Bool) (n : Nat) : (if a || b || c || d || n != 0 then 1 else 0) =
    if 128 * a.toNat + 64 * b.toNat + 32 * c.toNat + 16 * d.toNat + n = 0 then 0 else 1 := by
  cases a <;> cases b <;> cases c <;> cases d <;> simp

/-- What is written is a record of the standard, except for the profile compatibility and the extension of the high profiles. -/
theorem avcc_bytes (s : Sps) (sps pps : List Byte) :
    putAvcc (makeAvcc (members s) sps pps) =
      ({ recordFor s sps pps with compatibility := if constraintByte s = 0 then 0 else 1, extension := [] } : Record).bytes := by
  have hc : (makeAvcc (members s) sps pps).compatibility = if constraintByte s = 0 then 0 else 1 := by
    exact compat_bits _ _ _ _ _
  simp only [putAvcc, hc]
  simp [makeAvcc, members, recordFor, Record.bytes, put16, setBytes, be16]

/-- C81 (partial: parameter sets of up to 256 bytes; the profile compatibility is not the one of the sequence parameter set, and the extension of
the high profiles is missing). For a sequence parameter set of the standard, the record that is written holds the parameter sets, the profile
and the level, and a length size of 4. -/
theorem avcc_written_partial (s : Sps) (ok : SpsOk s) (nal pps : List Byte) (hn : IsSpsNal nal s) (hl : nal.length ≤ 256) (hp : pps.length ≤ 256)
    (h3 : ∀ payload, Bytes payload (spsBits s) → payload.getLast? ≠ some 3) (beyond : Mem) :
    ∃ (bytes : List Byte) (w h : Nat) (r : Record), avccFromSpsAndPps beyond nal pps = .ok (bytes, w, h, false) ∧ r.ok ∧ bytes = r.bytes ∧
      r.sps = [nal] ∧ r.pps = [pps] ∧ r.lengthSize = 4 ∧ r.profile = s.profileIdc ∧ r.level = s.levelIdc ∧
      (constraintByte s = 0 → s.profileIdc < 100 → r = recordFor s nal pps) := by
  have h := sps_read_partial s ok nal hn (by omega) h3 beyond
  refine ⟨_, width (members s), height (members s), { recordFor s nal pps with compatibility := if constraintByte s = 0 then 0 else 1, extension := [] }, ?_, ?_, avcc_bytes s nal pps,
    rfl, rfl, rfl, rfl, rfl, ?_⟩
  · rw [avccFromSpsAndPps, h]
    simp only
    rw [show (makeAvcc (members s) nal pps).overrun = false from by simp [makeAvcc]; omega]
  · obtain ⟨⟨h1, _⟩, _, h2, _⟩ := ok
    refine ⟨h1, ?_, h2, by simp [recordFor], by simp [recordFor], by simp [recordFor], by simp [recordFor], ?_, ?_⟩
    · show (if constraintByte s = 0 then 0 else 1) < 256
      split <;> omega
    · intro x hx; simp only [recordFor, List.mem_cons, List.not_mem_nil, or_false] at hx; subst hx; omega
    · intro x hx; simp only [recordFor, List.mem_cons, List.not_mem_nil, or_false] at hx; subst hx; omega
  · intro h0 h100
    simp only [recordFor, h0, if_true]
    rw [extensionFor, if_neg]
    simp; omega

/-- C81: what is written is read back. -/
theorem avcc_reread_partial (s : Sps) (ok : SpsOk s) (nal pps : List Byte) (hn : IsSpsNal nal s) (hl : nal.length ≤ 256) (hp : pps.length ≤ 256)
    (h3 : ∀ payload, Bytes payload (spsBits s) → payload.getLast? ≠ some 3) (beyond : Mem) :
    ∃ bytes w h m, avccFromSpsAndPps beyond nal pps = .ok (bytes, w, h, false) ∧ getAvcc bytes = some m ∧ m.overrun = false ∧
      m.sequence 0 = nal ∧ m.picture 0 = pps ∧ m.lengthSizeMinusOne = 3 ∧ m.profile = s.profileIdc ∧ m.level = s.levelIdc := by
  obtain ⟨bytes, w, h, r, k1, k2, rfl, k4, k5, k6, k7, k8, _⟩ := avcc_written_partial s ok nal pps hn hl hp h3 beyond
  obtain ⟨m, m1, m2, m3, _, m5, m6, _, _, m9, m10⟩ := avcc_read_partial r k2 nal pps k4 k5 hl hp
  exact ⟨_, w, h, m, k1, m1, m2, m9, m10, by omega, by rw [m3, k7], by rw [m5, k8]⟩

example : (0x67 :: (examplePayload.take 22 ++ [3] ++ examplePayload.drop 22)).length ≤ 256 := by decide

/-- C81: constraint_set1_flag (64 in the parameter set) is written as 1. -/
theorem compatibility_witness : ∃ nal, IsSpsNal nal spsInterlaced ∧ constraintByte spsInterlaced = 64 ∧
    ((avccFromSpsAndPps (fun _ => 0) nal [0x68]).toOption.map fun x => x.1[2]?) = some (some 1) :=
  ⟨0x67 :: escape [77, 64, 30, 236, 160, 90, 18, 100], ⟨3, [77, 64, 30, 236, 160, 90, 18, 100], by omega, by omega, by decide +kernel, by decide +kernel⟩,
    by decide +kernel, by decide +kernel⟩

/-- C81: the record of a high profile parameter set lacks the chroma format and the bit depths. -/
theorem extension_witness : (recordFor exampleSps [0x67] [0x68]).bytes.length = (putAvcc (makeAvcc (members exampleSps) [0x67] [0x68])).length + 4 := by
  decide +kernel

end Verif.H264

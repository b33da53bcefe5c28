import Verif.Slice.PropsList
/-
C156, C157, C158: concrete cases that meet the hypotheses of the theorems, and cases in which the full claims are false.
-/
namespace Verif.Slice
open Verif.H264 (Sequence exampleSps)
open Verif.BitStream (Byte Mem RErr RState rInit)
open Verif.H264.Spec
open Spec

/-! ### Picture parameter sets -/

/-- A parameter set of an encoder: CABAC, three reference pictures, weighted prediction; 26 bits. -/
def ppsA : Spec.Pps := ⟨0, 0, true, false, none, 2, 0, true, 2, -3, 0, -2, true, false, false⟩

/-- With three slice groups, bottom field order counts and redundant pictures; 46 bits. -/
def ppsB : Spec.Pps := { ppsA with picOrder := true, groups := some (.interleaved 3 5 [7]), redundant := true }

theorem ppsA_ok : PpsOk ppsA := by simp [PpsOk, ppsA, UOk, SOk]

theorem ppsB_ok : PpsOk ppsB := by simp [PpsOk, ppsB, ppsA, UOk, SOk, GroupsOk]

theorem ppsA_nal : IsPpsNal [0x68, 235, 227, 203, 32] ppsA [] [235, 227, 203, 32] := ⟨3, by omega, by omega, by decide +kernel, by decide +kernel⟩

theorem ppsB_nal : IsPpsNal [0x68, 247, 33, 132, 62, 60, 182] ppsB [] [247, 33, 132, 62, 60, 182] := ⟨3, by omega, by omega, by decide +kernel, by decide +kernel⟩

theorem ppsA_ext_nal : IsPpsNal [0x68, 235, 227, 203, 34, 192] ppsA (extBits true (-2)) [235, 227, 203, 34, 192] := ⟨3, by omega, by omega, by decide +kernel, by decide +kernel⟩

/-- `pps_read_partial` and `pps_print_partial` on a parameter set with 46 bits. -/
example : parsePps false (fun _ => 7) [0x68, 247, 33, 132, 62, 60, 182] = .ok (ppsMembers ppsB none) ∧ parsePps true (fun _ => 7) [0x68, 247, 33, 132, 62, 60, 182] = .ok (ppsMembers ppsB none) :=
  ⟨pps_read_partial ppsB ppsB_ok [] _ _ ppsB_nal (by decide) (by decide) _, pps_print_partial ppsB ppsB_ok _ _ ppsB_nal (by decide) (by decide) (by decide +kernel) _⟩

/-- C156, false: an ordinary parameter set of 26 bits, which the reader of files accepts, cannot be printed. -/
theorem pps_print_witness : parsePps false (fun _ => 7) [0x68, 235, 227, 203, 32] = .ok (ppsMembers ppsA none) ∧ parsePps true (fun _ => 7) [0x68, 235, 227, 203, 32] = .error .endOfData :=
  ⟨pps_read_partial ppsA ppsA_ok [] _ _ ppsA_nal (by decide) (by decide) _, pps_print_fails ppsA ppsA_ok _ _ ppsA_nal (by decide) (by decide) (by decide +kernel) _⟩

/-- `pps_print_ext_partial`; the reader of files does not notice the extension. -/
example : parsePps true (fun _ => 7) [0x68, 235, 227, 203, 34, 192] = .ok (ppsMembers ppsA (some ⟨true, false, -2⟩)) ∧ parsePps false (fun _ => 7) [0x68, 235, 227, 203, 34, 192] = .ok (ppsMembers ppsA none) :=
  ⟨pps_print_ext_partial ppsA ppsA_ok true (-2) (by simp [SOk]) _ _ ppsA_ext_nal (by decide) (by decide) _, pps_read_partial ppsA ppsA_ok _ _ _ ppsA_ext_nal (by decide) (by decide) _⟩

/-- A parameter set with a group for each of four map units (type 6), each in two bits. -/
def ppsC : Spec.Pps := { ppsA with groups := some (.explicit 2 1 [2, 0, 1]) }

/-- C156, false: the groups are read as Exp-Golomb codes, and the parameter set is refused. -/
theorem pps_explicit_witness : IsPpsNal [0x68, 230, 114, 48, 190, 60, 178] ppsC [] [230, 114, 48, 190, 60, 178] ∧ (parsePps false (fun _ => 7) [0x68, 230, 114, 48, 190, 60, 178]).toOption = none :=
  ⟨⟨3, by omega, by omega, by decide +kernel, by decide +kernel⟩, by decide +kernel⟩

/-! ### Slice headers -/

/-- A P slice with four reference pictures. -/
def sliceP : Slice := ⟨0, 0, 0, 0, 9, none, 0, 21, 0, 0, 0, 0, false, some (3, 0)⟩

/-- A B slice. -/
def sliceB : Slice := ⟨0, 1, 0, 0, 9, none, 0, 21, -3, 0, 0, 4, true, some (3, 1)⟩

/-- The same with the type that says that all slices of the picture are B slices. -/
def sliceB6 : Slice := { sliceB with type := 6 }

/-- A slice of an IDR picture. -/
def sliceI : Slice := { sliceB with type := 7, idrPicId := 5 }

theorem slices_ok : SliceOk exampleSps sliceP ∧ SliceOk exampleSps sliceB ∧ SliceOk exampleSps sliceB6 ∧ SliceOk exampleSps sliceI := by
  refine ⟨?_, ?_, ?_, ?_⟩ <;> constructor <;> simp [sliceP, sliceB, sliceB6, sliceI, exampleSps, UOk, SOk, separate]

theorem sliceP_bytes : Bytes [242, 172, 128] (sliceBits exampleSps ppsA 1 sliceP ++ List.replicate 5 false) := by decide +kernel

theorem sliceB_bytes : Bytes [172, 170, 114, 228, 64] (sliceBits exampleSps ppsB 1 sliceB ++ List.replicate 5 false) := by decide +kernel

theorem sliceB6_bytes : Bytes [159, 42, 156, 185, 16] (sliceBits exampleSps ppsB 1 sliceB6 ++ List.replicate 3 false) := by decide +kernel

theorem sliceI_bytes : Bytes [136, 201, 149, 57, 64] (sliceBits exampleSps ppsB 5 sliceI ++ List.replicate 6 false) := by decide +kernel

/-- `slice_read_partial` on the B slice. -/
example : ∃ r, sliceHeader (members exampleSps) (ppsMembers ppsB none) 1 false (rInit [172, 170, 114, 228, 64] (fun _ => 7)) = .ok (headerMembers exampleSps ppsB 1 sliceB, r) :=
  slice_read_partial exampleSps ppsB none 1 false sliceB slices_ok.2.1 (fun _ _ => rfl) _ _ (by decide) sliceB_bytes _

/-- C157, false: `field_pic_flag` is not initialised; if a byte other than 0 was there, the number for the bottom field is not read, and the numbers behind it are wrong: 6 redundant pictures instead of 4. -/
theorem field_memory_witness :
    (sliceHeader (members exampleSps) (ppsMembers ppsB none) 1 false (rInit [172, 170, 114, 228, 64] (fun _ => 7))).toOption.map (fun r => (r.1.deltaBottom, r.1.redundant)) = some (-3, 4) ∧
      (sliceHeader (members exampleSps) (ppsMembers ppsB none) 1 true (rInit [172, 170, 114, 228, 64] (fun _ => 7))).toOption.map (fun r => (r.1.deltaBottom, r.1.redundant)) = some (0, 6) := by
  decide +kernel

/-- C157, false: of a B slice of type 6 the direct flag and the numbers of reference pictures are not read. -/
theorem slice_type_witness : sliceB6.direct = true ∧ sliceB6.override = some (3, 1) ∧
    (sliceHeader (members exampleSps) (ppsMembers ppsB none) 1 false (rInit [159, 42, 156, 185, 16] (fun _ => 7))).toOption.map (fun r => (r.1.sliceType, r.1.direct, r.1.override, r.1.l0Minus1, r.1.l1Minus1)) =
      some (6, none, none, 0, 0) := by decide +kernel

/-- A sequence with separate colour planes. -/
def planes : Sps := { exampleSps with profileIdc := 244, high := ⟨3, true, 0, 0, false⟩ }

/-- C157, false: with separate colour planes `colour_plane_id` is taken for the first bits of the frame number. -/
theorem colour_plane_witness : Bytes [244, 171, 32] (sliceBits planes ppsA 1 { sliceP with colourPlane := 2 } ++ List.replicate 3 false) ∧
    (sliceHeader (members planes) (ppsMembers ppsA none) 1 false (rInit [244, 171, 32] (fun _ => 7))).toOption.map (fun r => r.1.frameNum) = some 10 ∧ sliceP.frameNum = 9 := by
  decide +kernel

/-! ### Samples -/

/-- A sample with a delimiter, an SEI unit of type 5 with 300 bytes, a slice of an IDR picture and a B slice. -/
def sampleUnits : List Unit :=
  [.other 9 0 [0xF0], .sei 5 300 (List.replicate 300 0xAB), .slice 5 3 sliceI (List.replicate 6 false) [136, 201, 149, 57, 64],
    .slice 1 0 sliceB (List.replicate 5 false) [172, 170, 114, 228, 64]]

/-- It meets the hypotheses of `listing_partial`. -/
example : listing (members exampleSps) (ppsMembers ppsB none) (fun _ => false) (fun _ => 7) 4 (prefixed 4 (sampleUnits.map Unit.bytes)) =
    some [.ok (.other 9), .ok (.sei 5 300), .ok (.slice 5 3 (headerMembers exampleSps ppsB 5 sliceI)), .ok (.slice 1 0 (headerMembers exampleSps ppsB 1 sliceB))] := by
  apply listing_partial exampleSps ppsB none _ _ sampleUnits
  · intro x hx
    simp only [sampleUnits, List.mem_cons, List.not_mem_nil, or_false] at hx
    rcases hx with rfl | rfl | rfl | rfl
    · exact ⟨by omega, by omega, by omega, by decide⟩
    · exact ⟨by decide +kernel, by decide +kernel⟩
    · exact ⟨by omega, by omega, slices_ok.2.2.2, sliceI_bytes, by decide, by decide⟩
    · exact ⟨by omega, by omega, slices_ok.2.1, sliceB_bytes, by decide, by decide⟩
  · exact fun _ _ _ => rfl
  · decide +kernel

end Verif.Slice

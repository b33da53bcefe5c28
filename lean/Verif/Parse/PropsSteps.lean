import Verif.Parse.Steps4
import Verif.Parse.PropsBad
/-
C138 for every sequence of bytes: what the number of steps can be, and when the reading ends.
-/
namespace Verif.Parse
open Verif.Fragment (fourcc box)
open Verif.Cenc.Spec (be)

/-- C138, the bound: every loop of the reader has come to its end within as many steps as the file has bytes, and one, or it never ends: more steps give the same. For every sequence of bytes and any acceptance of decoder configurations. -/
theorem decided_within_length (ok : Accept) (file : List UInt8) (n : Nat) (hn : file.length < n) : openFile ok n file = openFile ok (file.length + 1) file := by
  unfold openFile
  rw [parseFile_stable ok file n hn]

/-- C138. A file whose boxes fit is opened, or there is an exception, within as many steps as it has bytes, and one. What is in the boxes does not matter. -/
theorem opening_ends_partial (ok : Accept) (file : List UInt8) (hf : Fits file) (n : Nat) (hn : file.length < n) : openFile ok n file ≠ .error .endless := by
  have main : Safe (parseFile ok n file) := by
    unfold parseFile
    refine safe_bind (getBox_safe _ _) fun ⟨h, r⟩ _ => ?_
    simp only
    by_cases hk : known h.type = .ftyp
    · rw [if_pos hk]
      exact file_safe ok n file (fits_described hf) (fits_held hf) (fits_jumps hf) hn _ _ _ _ ⟨0, rfl⟩ (by omega)
    · rw [if_neg hk]; exact safe_thrown
  unfold openFile
  refine safe_bind main fun f _ => ?_
  split
  · exact safe_thrown
  · exact safe_ok _

/-! ### Files that fit -/

/-- `Fits`, for a given file. -/
def fitsB (file : List UInt8) : Bool :=
  (List.range file.length).all fun p =>
    let t := typeAt file p
    (t != fourcc 'm' 'd' 'a' 't' && t != fourcc 'f' 'r' 'e' 'e' || decide (p < endAt file p)) &&
    (t != fourcc 't' 'r' 'a' 'k' && t != fourcc 'm' 'i' 'n' 'f' || decide (endAt file p ≤ file.length)) &&
    (t != fourcc 's' 't' 's' 'd' || decide (endAt file (descriptions file p) ≤ file.length) && decide (field file (descriptions file p - 4) 4 ≤ 1))

theorem fits_of {file : List UInt8} (h : fitsB file = true) : Fits file := by
  have all : ∀ p < file.length, _ := fun p hp => List.all_eq_true.1 h p (List.mem_range.2 hp)
  simp only [Bool.and_eq_true, Bool.or_eq_true, bne_iff_ne, ne_eq, decide_eq_true_eq] at all
  refine ⟨fun p hp ht => ?_, fun p hp ht => ?_, fun p hp ht => ?_, fun p hp ht hc => ?_⟩
  · rcases (all p hp).1.1 with ⟨a, b⟩ | a
    · rcases ht with ht | ht <;> contradiction
    · exact a
  · rcases (all p hp).1.2 with ⟨a, b⟩ | a
    · rcases ht with ht | ht <;> contradiction
    · exact a
  · rcases (all p hp).2 with a | a
    · contradiction
    · exact a.1
  · rcases (all p hp).2 with a | a
    · contradiction
    · exact absurd a.2 (by omega)

/-- A file with one video track and its description. -/
def small : List UInt8 :=
  [0, 0, 0, 16, 102, 116, 121, 112, 105, 115, 111, 109, 0, 0, 0, 1, 0, 0, 0, 182, 116, 114, 97, 107, 0, 0, 0, 32, 104, 100, 108, 114, 0, 0, 0, 0, 0, 0, 0, 0, 118, 105, 100, 101, 0, 0, 0, 0, 0,
  0, 0, 0, 0, 0, 0, 0, 0, 0, 0, 142, 109, 105, 110, 102, 0, 0, 0, 20, 118, 109, 104, 100, 0, 0, 0, 0, 0, 0, 0, 0, 0, 0, 0, 0, 0, 0, 0, 114, 115, 116, 115, 100, 0, 0, 0, 0, 0, 0, 0, 1, 0, 0, 0,
  98, 97, 118, 99, 49, 0, 0, 0, 0, 0, 0, 0, 0, 0, 0, 0, 0, 0, 0, 0, 0, 0, 0, 0, 0, 0, 0, 0, 0, 2, 128, 1, 104, 0, 0, 0, 0, 0, 0, 0, 0, 0, 0, 0, 0, 0, 0, 0, 0, 0, 0, 0, 0, 0, 0, 0, 0, 0, 0, 0,
  0, 0, 0, 0, 0, 0, 0, 0, 0, 0, 0, 0, 0, 0, 0, 0, 0, 0, 0, 0, 0, 0, 24, 0, 0, 0, 12, 97, 118, 99, 67, 1, 100, 0, 31, 0, 0, 0, 11, 109, 100, 97, 116, 1, 2, 3]

theorem small_is : small = ftypBox ++ box (fourcc 't' 'r' 'a' 'k') (box (fourcc 'h' 'd' 'l' 'r') (be 4 0 ++ be 4 0 ++ be 4 (fourcc 'v' 'i' 'd' 'e') ++ List.replicate 12 0) ++
      box (fourcc 'm' 'i' 'n' 'f') (box (fourcc 'v' 'm' 'h' 'd') (List.replicate 12 0) ++ box (fourcc 's' 't' 's' 'd') (be 4 0 ++ be 4 1 ++
        box (fourcc 'a' 'v' 'c' '1') (List.replicate 24 0 ++ be 2 640 ++ be 2 360 ++ List.replicate 14 0 ++ [0] ++ List.replicate 31 0 ++ be 4 24 ++ box (fourcc 'a' 'v' 'c' 'C') [1, 100, 0, 31])))) ++
    box (fourcc 'm' 'd' 'a' 't') [1, 2, 3] := by decide +kernel

theorem small_fits : Fits small := fits_of (by decide +kernel)

/-- The track of the file is found. -/
example : (match openFile anything 210 small with | .ok x => (x.1.tracks.map fun t => t.1.entries, x.1.mdatEnd) | .error _ => ([], 0)) =
    ([[.visual (fourcc 'a' 'v' 'c' '1') 640 360 (some [1, 100, 0, 31])]], 209) := by decide +kernel

/-- Damaged files fit too: the same one with the type of the handler written over, where there is an exception, and one cut at an mdia box with the trak box cut too. -/
example : Fits (small.take 40 ++ List.replicate 4 255 ++ small.drop 44) ∧ failure (openFile anything 210 (small.take 40 ++ List.replicate 4 255 ++ small.drop 44)) = some .thrown ∧
    Fits (ftypBox ++ box (fourcc 't' 'r' 'a' 'k') (head 500 (fourcc 'm' 'd' 'i' 'a'))) ∧
    failure (openFile anything 33 (ftypBox ++ box (fourcc 't' 'r' 'a' 'k') (head 500 (fourcc 'm' 'd' 'i' 'a')))) = none :=
  ⟨fits_of (by decide +kernel), by decide +kernel, fits_of (by decide +kernel), by decide +kernel⟩

/-- The files of the two witnesses do not fit. -/
example : ¬Fits (ftypBox ++ head 0 (fourcc 'm' 'd' 'a' 't')) ∧ ¬Fits (ftypBox ++ (head 100 (fourcc 't' 'r' 'a' 'k') ++ head 10 (fourcc 'm' 'd' 'i' 'a'))) :=
  ⟨fun h => absurd (h.jumps 16 (by decide +kernel) (.inl (by decide +kernel))) (by decide +kernel),
   fun h => absurd (h.holders 16 (by decide +kernel) (.inl (by decide +kernel))) (by decide +kernel)⟩

end Verif.Parse

import Verif.Dash.Props3
/-
Concrete segments: the hypotheses of the theorems on segments are met, and what is missing in the partial ones.
-/
namespace Verif.Dash
open Verif.Reader (Track TrackBoxes Sample Reader toAdded exR exV exVT exVS exA exAT exAS ex_facts exSm openTrack holds_of)
open Verif.Reader.Spec (window pres Separates Timed Holds GopStart)
open Verif.Fragment (toyCipher toyCipher_length)
open Spec

/-- the bytes of the file of `exR` -/
def exFile : List UInt8 := (List.range 600).map fun n => UInt8.ofNat (n * n)

theorem ex_source_video : Source exFile exR 0 exV exVT [(8, 40)] exVS := by
  obtain ⟨h1, h2, h3, h4, h5, h6, h7, h8, h9⟩ := ex_facts
  exact ⟨h5, h2, by decide, by decide +kernel, ⟨0, rfl⟩, ⟨_, h1, h3, rfl⟩, by decide⟩

theorem ex_source_audio : Source exFile exR 1 exA exAT [(4, 80)] exAS := by
  obtain ⟨h1, h2, h3, h4, h5, h6, h7, h8, h9⟩ := ex_facts
  exact ⟨h4, h2, by decide, by decide +kernel, ⟨0, rfl⟩, ⟨_, h1, h3, rfl⟩, by decide⟩

/-- an encrypted video segment in the presentation at 7 s -/
def exQ (n base : Nat) : Request := ⟨10000000, some (true, [1, 2, 3, 4, 5, 6, 7, 255]), 1, n, true, some base, 4, 5⟩

theorem ex_good (stop : Nat) (hs : stop = 2000000 ∨ stop = 9000000) : Good id (exQ 1 70000000) exV exVT exVS 400000 stop := by
  obtain ⟨h1, h2, h3, h4, h5, h6, h7, h8, h9⟩ := ex_facts
  have hsep : Separates exVT stop exVS := by
    rcases hs with rfl | rfl
    · exact Verif.Reader.gop_separates h8
    · unfold Separates; decide +kernel
  refine ⟨by decide, by decide, by decide, fun h => absurd rfl h, ?_, by decide, .inr ⟨rfl, ⟨_, h6⟩, h7, hsep⟩, ⟨by decide, ?_⟩, ?_⟩
  · intro x hx; cases hx; rfl
  · intro x hx
    have hx : exVS[0]? = some x := by
      rw [← hx]; rcases hs with rfl | rfl <;> decide +kernel
    simp only [exVS, List.getElem?_cons_zero, Option.some.injEq] at hx
    subst hx; decide
  · rcases hs with rfl | rfl <;> decide +kernel

theorem ex_good2 : Good id (exQ 2 90000000) exV exVT exVS 2000000 9000000 := by
  obtain ⟨h1, h2, h3, h4, h5, h6, h7, h8, h9⟩ := ex_facts
  refine ⟨by decide, by decide, by decide, fun h => absurd rfl h, ?_, by decide, .inr ⟨rfl, ⟨_, h6⟩, h8, by unfold Separates; decide +kernel⟩, ⟨by decide, ?_⟩, by decide +kernel⟩
  · intro x hx; cases hx; rfl
  · intro x hx
    have hx : exVS[4]? = some x := by
      rw [← hx]; decide +kernel
    simp only [exVS, List.getElem?_cons_succ, List.getElem?_cons_zero, Option.some.injEq] at hx
    subst hx; decide

/-- `segment_holds_samples_partial` for the encrypted first group of pictures: four samples. -/
example : ∃ seg s, produce id toyCipher (exQ 1 70000000) exFile exR 0 400000 2000000 = some seg ∧ Fragment.Spec.segment seg = some s ∧
    content toyCipher s = (exVS.take 4).map (bytesOf exFile) := by
  obtain ⟨seg, s, h1, h2, _, _, h5, _⟩ := segment_holds_samples_partial id toyCipher toyCipher_length (exQ 1 70000000) exFile exR 0 exV exVT [(8, 40)] exVS ex_source_video 400000 2000000
    (ex_good _ (.inl rfl))
  exact ⟨seg, s, h1, h2, h5.trans (by decide +kernel)⟩

/-- `segment_times_partial`: the last sample of the second group, in a presentation where the group is at 9 s. -/
example : ∃ seg s base, produce id toyCipher (exQ 2 90000000) exFile exR 0 2000000 9000000 = some seg ∧ Fragment.Spec.segment seg = some s ∧ s.base = some base ∧
    (play base s.runs)[3]? = some (90800000, 90800000) := by
  obtain ⟨seg, s, base, h1, h2, h3, h4⟩ := segment_times_partial id toyCipher toyCipher_length (exQ 2 90000000) rfl exFile exR 0 exV exVT [(8, 40)] exVS ex_source_video (by intro h; cases h)
    2000000 9000000 (ex_good2) (by decide +kernel) (by decide) ⟨140, 10, 2000000, 1600000, 400000, true, 4⟩ (by decide +kernel)
  obtain ⟨e, e1, e2, e3⟩ := h4 3 ⟨170, 10, 2800000, 2800000, 400000, false, 7⟩ (by decide +kernel)
  have := e2 (by decide)
  subst this
  exact ⟨seg, s, base, h1, h2, h3, e3.trans (by decide +kernel)⟩

/-- `stream_segments_complete_partial`: two segments hold the whole track. -/
example : ∃ segs : List Fragment.Spec.Segment, (segments id toyCipher exFile exR 0 [exQ 1 70000000, exQ 2 90000000] [400000, 2000000, 9000000]).map (fun s => s.bind Fragment.Spec.segment) = segs.map some ∧
    segs.flatMap (content toyCipher) = exVS.map (bytesOf exFile) := by
  obtain ⟨segs, h1, h2, h3, h4⟩ := stream_segments_complete_partial id toyCipher toyCipher_length exFile exR 0 exV exVT [(8, 40)] exVS ex_source_video [2000000, 9000000] 400000
    [exQ 1 70000000, exQ 2 90000000] rfl (by decide) (by
      intro i q x y hq hx hy
      match i with
      | 0 => cases hq; cases hx; cases hy; exact ex_good _ (.inl rfl)
      | 1 => cases hq; cases hx; cases hy; exact ex_good2
      | i + 2 => simp at hq)
  exact ⟨segs, h1, h4 (by decide)⟩

/-- `cross_segment_partial`: the first group of one file and the second of another (here the same). -/
example : ∃ seg s, produceCross id toyCipher (exQ 1 70000000) exFile exR exFile exR 0 400000 2000000 400000 9000000 = some seg ∧ Fragment.Spec.segment seg = some s ∧
    content toyCipher s = (exVS.take 4 ++ exVS).map (bytesOf exFile) := by
  obtain ⟨seg, s, h1, h2, _, _, h5, _⟩ := cross_segment_partial id toyCipher toyCipher_length (exQ 1 70000000) exFile exR exV exVT [(8, 40)] exVS 0 ex_source_video 400000 2000000
    (ex_good _ (.inl rfl)) exFile exR exV exVT [(8, 40)] exVS ex_source_video 400000 9000000 (ex_good _ (.inr rfl)) (by decide +kernel) (by decide +kernel)
  exact ⟨seg, s, h1, h2, h5.trans (by decide +kernel)⟩

/-- 30000/1001 pictures a second, without reordering -/
def exN : TrackBoxes := { sm := exSm 4, stts := [1, 4, 1001], scale := 30000 }
def exNT : Track := (openTrack exN).getD ⟨exSm 0, [], [], false, [], false, [], 0, 0, 1, 0, 0, false, false⟩
def exNS : List Sample :=
  [⟨100, 10, 0, 0, 333666, true, 0⟩, ⟨110, 10, 333666, 333666, 333666, true, 1⟩, ⟨120, 10, 667333, 667333, 333666, true, 2⟩, ⟨130, 10, 1001000, 1001000, 333666, true, 3⟩]
def exNR : Reader := { streams := [(exNT, 0)], mdatEnd := 600 }

theorem exN_source : Source exFile exNR 0 exN exNT [(4, 1001)] exNS :=
  ⟨⟨rfl, rfl, by decide, by decide, rfl, by decide, by decide⟩, by
    intro s hs _
    rcases List.mem_cons.1 hs with rfl | hs
    · decide
    · simp at hs, by decide, by decide +kernel, ⟨0, rfl⟩, ⟨[exNS], .cons (holds_of _ _ (by decide) (by decide +kernel)) .nil, by unfold Verif.Reader.Spec.Inside; decide +kernel, rfl⟩, by decide⟩

/-- The rounding that `segment_times_partial` allows happens: at 30000/1001 pictures a second the fourth sample, 0.1001 s after the first, is presented 0.0000002 s too early by a player. -/
theorem segment_times_witness : ∃ seg s base, produce id toyCipher ⟨10000000, none, 1, 1, false, some 0, 0, 0⟩ exFile exNR 0 0 2000000 = some seg ∧ Fragment.Spec.segment seg = some s ∧
    s.base = some base ∧ (play base s.runs)[3]? = some (1000998, 1000998) ∧ exNS[3]?.map (·.composition) = some 1001000 := by
  have hw : window exNT 0 2000000 exNS = exNS := by decide +kernel
  obtain ⟨seg, s, g1, g2, _, _, _, _, _, _, g9, g10⟩ := segment_all id toyCipher toyCipher_length ⟨10000000, none, 1, 1, false, some 0, 0, 0⟩ exFile exNR 0 exN exNT [(4, 1001)] exNS exN_source 0 2000000
    ⟨by decide, by decide, by decide, fun h => absurd rfl h, (by intro x hx; cases hx), by decide, .inl ⟨rfl, rfl⟩, ⟨by decide, (by rw [hw]; intro x hx; cases hx; decide)⟩, by decide +kernel⟩
  rw [hw] at g9 g10
  refine ⟨seg, s, 0, g1, g2, g9, ?_, rfl⟩
  rw [g10]
  decide +kernel

end Verif.Dash

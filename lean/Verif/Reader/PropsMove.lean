import Verif.Reader.PropsFrames
import Mathlib.Tactic.IntervalCases
/-
C91: where reading starts after a move. Concrete cases and witnesses for C45, C91, C92.
-/
namespace Verif.Reader
open Verif.Tables Verif.RangeMap Verif.Reader.Spec
open Verif.Tables.Spec (expand)

/-- C91. For every file, every track with a sync table and every time: a move to that time succeeds and leaves the track
at or before a sync sample that is decoded by that time (or at or before the first sync sample, when none is), and
every later sync sample is decoded at that time or later. -/
theorem move_at_or_before_sync (r : Reader) (xss : List (List Sample)) (h : FileHolds r xss) (ht : HasTimes r)
    (id : Nat) (b : TrackBoxes) (t : Track) (p : Nat) (es : List (Nat × Nat)) (hb : Timed b t es) (ns : List Nat)
    (hs : Synced b ns) (hid : r.streams[id]? = some (t, p)) (xs : List Sample) (hxs : xss[id]? = some xs)
    (time : Nat) (h64 : time * t.scale < 2 ^ 64) :
    ∃ r' J m x, move r time id = some r' ∧ r'.streams[id]? = some (t, m) ∧ xs[J]? = some x ∧ x.sync = true ∧ m ≤ J ∧
      (x.decoding ≤ time ∨ ∀ i y, i < J → xs[i]? = some y → y.sync = false) ∧
      (∀ i y, J < i → xs[i]? = some y → y.sync = true → time ≤ y.decoding) ∧
      (10000000 % t.scale = 0 → m = J ∧ ∀ i y, J < i → xs[i]? = some y → y.sync = true → time < y.decoding) := by
  obtain ⟨a, ha, hold⟩ := forall₂_get h id xs hxs
  rw [hid] at ha; simp at ha; subst ha
  obtain ⟨_, _, _, _, _, hif⟩ := synced_map hb hs
  obtain ⟨_, hcount, hscale, _⟩ := timed_dec hb
  have hspos : 0 < t.scale := hscale ▸ hb.scale
  obtain ⟨J, x, m, k1, k2, k3, k4, k5, k6, k7, k8, k9⟩ := move_sync hb hs hold time p
  obtain ⟨c, c1, c2, _⟩ := holds_comp hold J x k3
  obtain ⟨⟨d, d1, d2⟩, _⟩ := holds_dec hold J x k3
  obtain ⟨ss', e1, e2, e3⟩ := moveStreams_spec x.decoding ((x.composition + t.offset) % 2 ^ 64) r.streams xss h ht
  obtain ⟨n, f1, f2⟩ := e3 id t p hid
  rw [k7] at f2; simp at f2; subst f2
  have hmem : ∀ i y, xs[i]? = some y → (y.sync = true ↔ i ∈ ns) := by
    intro i y hy
    obtain ⟨_, hy3⟩ := holds_dec hold i y hy
    rw [hif i] at hy3
    simp only [Option.some.injEq] at hy3
    rw [← hy3]; simp
  have hraw : raw time t.scale = time * t.scale / 10000000 := by rw [raw, Nat.mod_eq_of_lt h64]
  have hlater : ∀ i y, J < i → xs[i]? = some y → y.sync = true →
      raw time t.scale < startOf (expand es) i ∧ y.decoding = 10000000 * startOf (expand es) i / t.scale := by
    intro i y hi hy hsy
    obtain ⟨⟨dd, dd1, dd2⟩, _⟩ := holds_dec hold i y hy
    have hil : i < (expand es).length := by
      rw [← hcount, holds_count hold]; exact (List.getElem?_eq_some_iff.1 hy).1
    rw [timed_decoding hb i hil] at dd1
    simp at dd1; subst dd1
    have := startOf_le_sum (expand es) i
    have := hb.fits
    exact ⟨k6 i ((hmem i y hy).1 hsy) hi, by rw [dd2, hns_eq _ _ (by omega)]⟩
  refine ⟨{ r with streams := ss', last := 0 }, J, m, x, ?_, f1, k3, k4, k8, ?_, ?_, ?_⟩
  · simp only [move, hid, k1, Track.decoding, Track.composition, c1, d1, Option.map_some, ← c2, ← d2, e1]
  · rcases k5 with k5 | k5
    · exact .inl k5
    · right
      intro i y hi hy
      by_contra hcon
      have := k5 i ((hmem i y hy).1 (by simpa using hcon))
      omega
  · intro i y hi hy hsy
    obtain ⟨g1, g2⟩ := hlater i y hi hy hsy
    rw [g2, Nat.le_div_iff_mul_le hspos]
    rw [hraw, Nat.div_lt_iff_lt_mul (by decide)] at g1
    omega
  · intro hdiv
    refine ⟨k9 hdiv, ?_⟩
    intro i y hi hy hsy
    obtain ⟨g1, g2⟩ := hlater i y hi hy hsy
    obtain ⟨q, hq⟩ := Nat.dvd_of_mod_eq_zero hdiv
    rw [g2, hq, Nat.mul_assoc, Nat.mul_div_cancel_left _ hspos]
    rw [hraw, hq] at g1
    have hq0 : 0 < q := by
      rcases Nat.eq_zero_or_pos q with h0 | h0
      · rw [h0] at hq; simp at hq
      · exact h0
    rw [Nat.mul_comm time, Nat.mul_div_mul_left _ _ hspos, Nat.div_lt_iff_lt_mul hq0] at g1
    rw [Nat.mul_comm]; exact g1

/-! ### concrete tracks -/

theorem holds_of (t : Track) (xs : List Sample) (hc : t.count = xs.length)
    (h : ∀ n, n < xs.length → t.pick n = some xs[n]?) : Holds t xs := by
  intro n
  rcases Nat.lt_or_ge n xs.length with hn | hn
  · exact h n hn
  · rw [Track.pick, if_pos (by omega), List.getElem?_eq_none hn]

/-- one chunk of four samples of 10 bytes at 100 -/
def exSm (n : Nat) : SampleManager := ⟨[(n, ⟨n, 1, 0, 1⟩)], 10, n, [], [100]⟩

/-- audio, frames of 80 ms, the track starts at 1 s -/
def exA : TrackBoxes := { sm := ⟨[(4, ⟨4, 1, 0, 1⟩)], 10, 4, [], [500]⟩, stts := [1, 4, 80], scale := 1000, elst := 1000, mvhdScale := 1000 }
def exAT : Track := (openTrack exA).getD ⟨exSm 0, [], [], false, [], false, [], 0, 0, 1, 0, 0, false, false⟩
def exAS : List Sample :=
  [⟨500, 10, 0, 0, 800000, true, 0⟩, ⟨510, 10, 800000, 800000, 800000, true, 1⟩,
   ⟨520, 10, 1600000, 1600000, 800000, true, 2⟩, ⟨530, 10, 2400000, 2400000, 800000, true, 3⟩]

/-- video, two closed groups of four with reordering: I P B B I P B B -/
def exV : TrackBoxes :=
  { sm := exSm 8, stts := [1, 8, 40], ctts := some [6, 1, 40, 1, 120, 2, 0, 1, 40, 1, 120, 2, 0],
    stss := some [2, 1, 5], scale := 1000, visual := true }
def exVT : Track := (openTrack exV).getD ⟨exSm 0, [], [], false, [], false, [], 0, 0, 1, 0, 0, false, false⟩
def exVS : List Sample :=
  [⟨100, 10, 400000, 0, 400000, true, 0⟩, ⟨110, 10, 1600000, 400000, 400000, false, 1⟩,
   ⟨120, 10, 800000, 800000, 400000, false, 2⟩, ⟨130, 10, 1200000, 1200000, 400000, false, 3⟩,
   ⟨140, 10, 2000000, 1600000, 400000, true, 4⟩, ⟨150, 10, 3200000, 2000000, 400000, false, 5⟩,
   ⟨160, 10, 2400000, 2400000, 400000, false, 6⟩, ⟨170, 10, 2800000, 2800000, 400000, false, 7⟩]

/-- the reader of both -/
def exR : Reader := { streams := [(exVT, 0), (exAT, 0)], mdatEnd := 600 }

/-- the hypotheses of the theorems on fragments are met by the concrete file -/
theorem ex_facts : FileHolds exR [exVS, exAS] ∧ HasTimes exR ∧ Inside [exVS, exAS] 600 ∧ Timed exA exAT [(4, 80)] ∧
    Timed exV exVT [(8, 40)] ∧ Synced exV [0, 4] ∧ GopStart exVT exVS 400000 ∧ GopStart exVT exVS 2000000 ∧
    exVT.cttsCount ≠ 1 := by
  refine ⟨.cons (holds_of _ _ (by decide) (by decide +kernel)) (.cons (holds_of _ _ (by decide) (by decide +kernel)) .nil),
    ?_, ?_, ⟨rfl, rfl, by decide, by decide, rfl, by decide, by decide⟩, ⟨rfl, rfl, by decide, by decide, rfl, by decide, by decide⟩,
    ⟨rfl, by decide, by decide, by decide, by decide⟩, ?_, ?_, by decide⟩
  · intro s hs _
    rcases List.mem_cons.1 hs with rfl | hs
    · decide
    · rcases List.mem_cons.1 hs with rfl | hs
      · decide
      · simp at hs
  · unfold Inside; decide +kernel
  · refine ⟨0, _, rfl, rfl, by decide, by omega, ?_, ?_⟩
    · intro i y _ hy
      have : ∀ y ∈ exVS, 400000 ≤ pres exVT y := by decide
      exact this y (List.mem_of_getElem? hy)
    · intro n y hn hy hs
      have : ∀ n, n < 8 → 0 < n → ∀ y, exVS[n]? = some y → y.sync = true → 400000 < y.decoding := by
        intro n h1 h2 y hy; interval_cases n <;> simp [exVS] at hy <;> subst hy <;> decide
      exact this n (by have := (List.getElem?_eq_some_iff.1 hy).1; simpa [exVS] using this) hn y hy hs
  · refine ⟨4, _, rfl, rfl, by decide, ?_, ?_, ?_⟩
    · intro n y hn hy
      interval_cases n <;> simp [exVS] at hy <;> subst hy <;> decide
    · intro n y hn hy
      have : n < 8 := by have := (List.getElem?_eq_some_iff.1 hy).1; simpa [exVS] using this
      interval_cases n <;> simp [exVS] at hy <;> subst hy <;> decide
    · intro n y hn hy
      have : n < 8 := by have := (List.getElem?_eq_some_iff.1 hy).1; simpa [exVS] using this
      interval_cases n <;> simp [exVS] at hy <;> subst hy <;> decide

/-- concrete fragments: the second group of the video, and two adjacent ones of the audio -/
example : (addFrames exR 0 2000000 9000000 none).map (fun p => (p.1.map (·.number), p.2)) = some ([4, 5, 6, 7], some 1600000) ∧
    (addFrames exR 1 10500000 11600000 none).map (fun p => p.1.map (·.number)) = some [1] ∧
    (cutAll exR 1 [10500000, 11600000, 20000000]).map (fun l => l.map (·.number)) = some [1, 2, 3] := by decide +kernel

/-! ### witnesses -/

/-- The reader of one track with 10 byte samples. -/
def oneTrack (b : TrackBoxes) : Option Reader := openReader [b] 1000

/-- I P | I B P with a leading B picture: presented at 120, after the sync sample presented at 160 in decoding order. -/
def openGop : TrackBoxes :=
  { sm := exSm 5, stts := [1, 5, 40], ctts := some [4, 2, 40, 1, 80, 1, 0, 1, 40], stss := some [2, 1, 3], scale := 1000 }

/-- C45 fails for open groups of pictures: sample 3 is in neither of the two adjacent fragments. -/
theorem fragment_open_gop_witness :
    ∃ r, oneTrack openGop = some r ∧
      (addFrames r 0 400000 1600000 none).map (fun p => p.1.map (·.number)) = some [0, 1] ∧
      (addFrames r 0 1600000 9000000 none).map (fun p => p.1.map (·.number)) = some [2, 4] ∧
      (r.streams[0]?.map (fun s => s.1.pick 3)) = some (some (some ⟨130, 10, 1200000, 1200000, 400000, false, 3⟩)) :=
  ⟨_, rfl, by decide +kernel⟩

/-- Two sync samples one after the other, composition offset of two frames. -/
def closeSync : TrackBoxes :=
  { sm := exSm 4, stts := [1, 4, 40], ctts := some [2, 1, 80, 3, 80], stss := some [2, 1, 2], scale := 1000 }

/-- C45 fails when the next sync sample is decoded before `start`: sample 0, presented at `start`, is missing. -/
theorem fragment_close_sync_witness :
    ∃ r, oneTrack closeSync = some r ∧
      (addFrames r 0 800000 9000000 none).map (fun p => p.1.map (·.number)) = some [1, 2, 3] ∧
      (r.streams[0]?.bind (fun s => s.1.composition 0)) = some 800000 :=
  ⟨_, rfl, by decide +kernel⟩

/-- Video that starts at 1 s. -/
def offsetVideo : TrackBoxes :=
  { sm := exSm 4, stts := [1, 4, 40], stss := some [2, 1, 3], scale := 1000, elst := 1000, mvhdScale := 1000 }

/-- C45 fails for video with an edit list: the move ignores the offset, and the first two samples are missing. -/
theorem fragment_offset_witness :
    ∃ r, oneTrack offsetVideo = some r ∧
      (addFrames r 0 10000000 90000000 none).map (fun p => p.1.map (·.number)) = some [2, 3] :=
  ⟨_, rfl, by decide +kernel⟩

/-- 30000/1001 frames per second, all sync samples. -/
def ntsc : TrackBoxes := { sm := exSm 4, stts := [1, 4, 3003], stss := some [4, 1, 2, 3, 4], scale := 90000 }

/-- C91 fails when the time scale does not divide 10 MHz: moving to the decoding time reported for sample 2 leaves the
track at sample 0. -/
theorem move_rounding_witness :
    ∃ r, oneTrack ntsc = some r ∧ (r.streams[0]?.bind (fun s => s.1.decoding 2)) = some 667333 ∧
      ((move r 667333 0).map (fun r => r.streams.map (·.2))) = some [0] :=
  ⟨_, rfl, by decide +kernel⟩

/-- C92 fails when `start` lies between samples: the first sample of the audio fragment is decoded at 1.08 s, the base
media decode time is 1.05 s. -/
theorem base_time_witness :
    addFrames exR 1 10500000 11600000 none = some ([⟨510, 10, 800000, 800000, 800000, true, 1⟩], some 10500000) ∧
      800000 + exAT.offset = 10800000 := by decide +kernel

end Verif.Reader

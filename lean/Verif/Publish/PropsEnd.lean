import Verif.Publish.Props
/-
C144: when the search for the points of a stream does not end. C145: points that do not fit the samples.
-/
namespace Verif.Publish
open Verif.Tables Verif.Reader Verif.Reader.Spec Verif.Publish.Spec
open Verif.Tables.Spec (expand)

theorem waitStart_endless {T : Track} {start p c : Nat} (h : timeOf T p = .ok c) (hc : c < start) :
    ∀ fuel, waitStart T start p fuel c = .error .endless := by
  intro fuel
  induction fuel with
  | zero => rfl
  | succ fuel ih =>
    unfold waitStart
    rw [if_pos hc, h]
    show waitStart T start p fuel c = _
    exact ih

/-- C144: if the sample found for the start is played before it, the search never ends: the loop that waits for the start reads the time of the same sample. -/
theorem behind_start_endless (length : Nat) (x : Item) (p c : Nat)
    (hp : x.T.compSample (if x.T.offset < x.start then x.start - x.T.offset else 0) = some p) (hd : sampleDuration x.T x.media ≠ 0)
    (hc : timeOf x.T p = .ok c) (h : c < x.start) (pend : Pending) (fuel : Nat) : publish length fuel x pend = .error .endless := by
  unfold publish
  simp only [hp, orThrow]
  show (if _ then _ else _) = _
  rw [if_neg hd, hc]
  show (do let c ← waitStart x.T x.start p fuel c; _) = _
  rw [waitStart_endless hc h]; rfl

/-- C144: so it is for every start behind the last sample of a stream without composition offsets. -/
theorem late_start_endless (length : Nat) (x : Item) (b : TrackBoxes) (es : List (Nat × Nat)) (h : Timed b x.T es) (hc : b.ctts = none)
    (h2 : 2 ≤ (expand es).length) (hd : 0 < average x.T.scale (expand es))
    (hs : ∀ t ∈ times x.T.scale x.T.offset (expand es), t < x.start) (pend : Pending) (fuel : Nat) :
    publish length fuel x pend = .error .endless := by
  obtain ⟨m, h3, h4, _⟩ := compSample_plain h hc (if x.T.offset < x.start then x.start - x.T.offset else 0)
  have hm : m < (expand es).length := by rw [(timed_dec h).2.1] at h4; exact h4
  refine behind_start_endless length x m _ h3 ?_ (timeOf_ok h hc m hm) (hs _ ?_) pend fuel
  · rw [sampleDuration_plain h hc _ h2]
    simp only [average] at hd; omega
  · simp only [times, List.mem_map, List.mem_range]; exact ⟨m, hm, rfl⟩

/-- four frames of 80 ms, start at 1 s -/
example : Timed (audio 4 0) (item (audio 4 0) 10000000 20000000).T [(4, 80)] ∧ 0 < average 1000 (expand [(4, 80)]) ∧
    ∀ t ∈ times 1000 0 (expand [(4, 80)]), t < 10000000 :=
  ⟨⟨rfl, rfl, by decide, by decide, rfl, by decide, by decide⟩, by decide +kernel, by decide +kernel⟩

/-- C144: and for every start less than one unit of the media behind a sample. -/
theorem near_start_endless (length : Nat) (x : Item) (b : TrackBoxes) (es : List (Nat × Nat)) (h : Timed b x.T es) (hc : b.ctts = none)
    (h2 : 2 ≤ (expand es).length) (hd : 0 < average x.T.scale (expand es)) (hfit : (x.start - x.T.offset) * x.T.scale < 2 ^ 64) (i : Nat) (hi : i < (expand es).length)
    (h3 : 10000000 * ((expand es).take i).sum < (x.start - x.T.offset) * x.T.scale)
    (h4 : (x.start - x.T.offset) * x.T.scale < 10000000 * (((expand es).take i).sum + 1)) (pend : Pending) (fuel : Nat) :
    publish length fuel x pend = .error .endless := by
  have hsc : 0 < x.T.scale := by rw [(timed_dec h).2.2.1]; exact h.scale
  have hso : x.T.offset < x.start := by
    by_contra hcon
    rw [show x.start - x.T.offset = 0 by omega] at h3
    omega
  obtain ⟨m, c1, c2, c3, c4⟩ := compSample_plain h hc (x.start - x.T.offset)
  have hr : raw (x.start - x.T.offset) x.T.scale = ((expand es).take i).sum := by
    rw [raw, Nat.mod_eq_of_lt hfit]
    omega
  rw [(timed_dec h).2.1] at c2 c4
  have hmi : m ≤ i := c4 i hi (by rw [hr]; exact Nat.le_refl _)
  refine behind_start_endless length x m _ (by rw [if_pos hso]; exact c1) ?_ (timeOf_ok h hc m c2) ?_ pend fuel
  · rw [sampleDuration_plain h hc _ h2]
    simp only [average] at hd; omega
  · have h5 := startOf_le (expand es) (expand_pos h.pos) m i hmi (by omega)
    have h6 : 10000000 * ((expand es).take m).sum / x.T.scale < x.start - x.T.offset := by
      rw [Nat.div_lt_iff_lt_mul hsc]
      have : 10000000 * ((expand es).take m).sum ≤ 10000000 * ((expand es).take i).sum := Nat.mul_le_mul_left _ h5
      omega
    exact Nat.add_lt_of_lt_sub h6

/-- C144: and for every start between the first two samples. -/
theorem second_start_endless (length : Nat) (x : Item) (b : TrackBoxes) (es : List (Nat × Nat)) (h : Timed b x.T es) (hc : b.ctts = none)
    (h2 : 2 ≤ (expand es).length) (hd : 0 < average x.T.scale (expand es)) (hso : x.T.offset < x.start)
    (h4 : (x.start - x.T.offset) * x.T.scale < 10000000 * ((expand es).take 1).sum) (pend : Pending) (fuel : Nat) :
    publish length fuel x pend = .error .endless := by
  have hfit := h.fits
  obtain ⟨n, hn, hiff⟩ := decoding_number es h.ne h.pos (raw (x.start - x.T.offset) x.T.scale) (by omega) (raw_lt _ _)
  have h5 := startOf_le_sum (expand es) 1
  have hr : raw (x.start - x.T.offset) x.T.scale < startOf (expand es) 1 := by
    rw [raw, Nat.mod_eq_of_lt (by unfold startOf at h5; omega), Nat.div_lt_iff_lt_mul (by omega)]
    unfold startOf; omega
  have hn0 : n = 0 := by
    by_contra hcon
    have := (hiff 1 (by omega)).2 (by omega)
    omega
  have c1 : x.T.compSample (x.start - x.T.offset) = some 0 := by
    have hraw : x.T.compSampleRaw (raw (x.start - x.T.offset) x.T.scale) = some n := by
      simp only [Track.compSampleRaw, (timed_comps h hc).2.1, (timed_dec h).1, hn]; rfl
    simp only [Track.compSample, hraw, hn0, if_pos]
  refine behind_start_endless length x 0 _ (by rw [if_pos hso]; exact c1) ?_ (timeOf_ok h hc 0 (by omega)) ?_ pend fuel
  · rw [sampleDuration_plain h hc _ h2]
    simp only [average] at hd; omega
  · simpa using hso

/-- starts 0.5 ms behind the third frame, and 20 ms behind the first -/
example : Timed (audio 4 0) (item (audio 4 0) 1605000 20000000).T [(4, 80)] ∧
    10000000 * ((expand [(4, 80)]).take 2).sum < 1605000 * 1000 ∧ 1605000 * 1000 < 10000000 * (((expand [(4, 80)]).take 2).sum + 1) ∧
    200000 * 1000 < 10000000 * ((expand [(4, 80)]).take 1).sum ∧
    (fun fuel => failure (publish 3300000 fuel (item (audio 4 0) 1605000 20000000) none)) 50 = some .endless ∧
    (fun fuel => failure (publish 3300000 fuel (item (audio 4 0) 200000 20000000) none)) 50 = some .endless :=
  ⟨⟨rfl, rfl, by decide, by decide, rfl, by decide, by decide⟩, by decide, by decide, by decide, by decide +kernel, by decide +kernel⟩

/-- AAC frames of 48 kHz, a frame in the middle is asked for with the time in 100 ns rounded up -/
def aac (n : Nat) : TrackBoxes := { sm := ⟨[(n, ⟨n, 1, 0, 1⟩)], 10, n, [], [100]⟩, stts := [1, n, 1024], scale := 48000 }

/-- C144: a start that is rounded up to the next 100 ns is enough. -/
theorem rounded_start_witness (length : Nat) (pend : Pending) (fuel : Nat) :
    publish length fuel (item (aac 20) 213334 100000000) pend = .error .endless :=
  behind_start_endless length _ 1 213333 (by decide +kernel) (by decide +kernel)
    (by rw [show (item (aac 20) 213334 100000000).T = track (aac 20) from rfl]
        have h : Timed (aac 20) (track (aac 20)) [(20, 1024)] := ⟨rfl, rfl, by decide, by decide, rfl, by decide, by decide⟩
        rw [timeOf_ok h rfl 1 (by decide)]; rfl) (by decide) pend fuel

theorem pointLoop_zero {T : Track} {stop p c : Nat} (h : timeOf T p = .ok c) (hp : p < T.count) (h64 : T.count < 2 ^ 64) (hc : c < stop) :
    ∀ fuel, pointLoop T stop 0 fuel p c = .error .endless := by
  intro fuel
  induction fuel with
  | zero => rfl
  | succ fuel ih =>
    unfold pointLoop
    simp only [Nat.add_zero, Nat.mod_eq_of_lt (show p < 2 ^ 64 by omega), if_pos (show c < stop ∧ p < T.count from ⟨hc, hp⟩)]
    rw [if_neg (by omega), if_neg (by omega), h]
    show (do let (es, pend) ← pointLoop T stop 0 fuel p c; Except.ok (Event.point c :: es, pend)) = _
    rw [ih]; rfl

/-- C144: segments shorter than a sample: the first one is published for ever. -/
theorem short_segment_endless (length : Nat) (x : Item) (b : TrackBoxes) (es : List (Nat × Nat)) (h : Timed b x.T es) (hc : b.ctts = none)
    (h2 : 2 ≤ (expand es).length) (h64 : (expand es).length < 2 ^ 64) (hlen : length < average x.T.scale (expand es)) (hs : x.start ≤ x.T.offset) (he : x.T.offset < x.stop)
    (fuel : Nat) : publish length fuel x none = .error .endless := by
  have hd := sampleDuration_plain h hc x.media h2
  have h0 := timeOf_ok h hc 0 (by omega)
  rw [show 10000000 * ((expand es).take 0).sum / x.T.scale + x.T.offset = x.T.offset by simp] at h0
  have hn := (timed_dec h).2.1
  have hcs : x.T.compSample (if x.T.offset < x.start then x.start - x.T.offset else 0) = some 0 := by
    rw [if_neg (by omega)]; exact start_first h hc
  unfold publish
  simp only [hcs, orThrow, hd]
  unfold average at hlen
  show (if _ then _ else _) = _
  rw [if_neg (by omega), h0]
  show (do let c ← waitStart x.T x.start 0 fuel x.T.offset; _) = _
  cases fuel with
  | zero => rfl
  | succ fuel =>
    have : waitStart x.T x.start 0 (fuel + 1) x.T.offset = .ok x.T.offset := by unfold waitStart; rw [if_neg (by omega)]
    rw [this, Nat.div_eq_of_lt hlen]
    exact pointLoop_zero h0 (by omega) (by omega) he _

/-- frames of 80 ms, segments of 50 ms -/
example : Timed (audio 4 0) (item (audio 4 0) 0 20000000).T [(4, 80)] ∧ 500000 < average 1000 (expand [(4, 80)]) :=
  ⟨⟨rfl, rfl, by decide, by decide, rfl, by decide, by decide⟩, by decide +kernel⟩

/-- C144: a stream without any media duration, or with a file between too short to fill the segment begun: an exception. -/
theorem publish_thrown_witness : failure (publish 3300000 20 (item { audio 4 0 with stts := [1, 4, 0] } 0 20000000) none) = some .thrown ∧
    failure (publishAll 3300000 20 [(0, item (audio 9 0) 0 20000000), (0, item (audio 3 0) 0 20000000), (0, item (audio 9 0) 0 20000000)] none) = some .thrown := by
  decide +kernel

/-- C145: what is left of a file that begins or goes on with fewer samples than a segment is published as a full one and lost for the next file: 3 samples and 9 make no three segments of 4; 10, 5 and 9 make no cross point to the third. -/
theorem short_file_witness :
    outcome (publishAll 3300000 20 [(0, item (audio 3 0) 0 20000000), (0, item (audio 9 0) 0 20000000)] none) =
      some ([(0, .point 0), (0, .point 0), (0, .point 3200000)], some (6400000, 1)) ∧
    points 4 (joined [times 1000 0 (List.replicate 3 80), times 1000 0 (List.replicate 9 80)]) =
      ([some (.cross 0 0), some (.point 800000), some (.point 4000000)], none) ∧
    outcome (publishAll 3300000 20 [(0, item (audio 10 0) 0 20000000), (0, item (audio 5 0) 0 20000000), (0, item (audio 9 0) 0 20000000)] none) =
      some ([(0, .point 0), (0, .point 3200000), (0, .cross 6400000 0), (0, .point 1600000), (0, .point 0), (0, .point 3200000)], some (6400000, 1)) ∧
    points 4 (joined [times 1000 0 (List.replicate 10 80), times 1000 0 (List.replicate 5 80), times 1000 0 (List.replicate 9 80)]) =
      ([some (.point 0), some (.point 3200000), some (.cross 6400000 0), some (.cross 1600000 0), some (.point 800000), some (.point 4000000)], none) := by
  decide +kernel

/-- C145: two streams in a file share what is left: the second stream begins with a segment that goes on from the first stream, at a time of the same file, and its own first samples have no point. -/
theorem two_streams_witness :
    outcome (publishAll 3300000 20 [(0, item (audio 10 0) 0 20000000), (1, item (audio 8 0) 0 20000000)] none) =
      some ([(0, .point 0), (0, .point 3200000), (1, .cross 6400000 0), (1, .point 1600000)], some (4800000, 2)) ∧
    points 4 (joined [times 1000 0 (List.replicate 8 80)]) = ([some (.point 0), some (.point 3200000)], none) := by
  decide +kernel

end Verif.Publish

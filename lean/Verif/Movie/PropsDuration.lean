import Verif.Movie.Props
/-
What the headers of a movie file say about durations, and the files that a strict reader refuses or misreads.
-/
namespace Verif.Movie
open Verif.Fragment (box fourcc)
open Verif.Tables (SampleIn sub64 writeAll)
open Verif.Interleave (QSample IStream Mux toU64)
open Verif.Interleave.Spec (ofStream)

theorem writeAll_samples (v : Bool) (xs : List SampleIn) : (writeAll { visual := v } xs).samples = xs.map Verif.Tables.des := by
  rw [(Verif.Tables.writeAll_fields _ _).1]; rfl

/-- The duration of a stream whose first and last samples are `f` and `z`. -/
theorem duration_eq (p : MStream) (s : IStream) (f z : QSample × Nat) (hf : s.written.head? = some f) (hz : s.written.getLast? = some z)
    (h : 0 ≤ f.1.composition ∧ f.1.composition ≤ z.1.composition ∧ z.1.composition < 2 ^ 63) :
    (streamOf p s).duration = (z.1.composition - f.1.composition).toNat := by
  have hU : ∀ c : Int, 0 ≤ c → c < 2 ^ 63 → toU64 c = c.toNat := by
    intro c h0 h1; rw [toU64, Int.emod_eq_of_lt h0 (by omega)]
  simp only [MStream.duration, streamOf, writeAll_samples, List.map_map, List.head?_map, List.getLast?_map, hf, hz, Option.map_some, Function.comp_apply, Verif.Tables.des, told]
  rw [hU _ h.1 (by omega), hU _ (by omega) h.2.2, sub64]
  omega

/-- C129 (partial: the headers leave out the duration of the last sample, see `duration_witness`). The media header of a track announces the time from the composition of its first sample to that of its last
one (in the order of decoding), in units of the track; the track header the same in units of the movie, with the delay of the stream. -/
theorem movie_durations_partial (ts hn : Nat → Nat → Nat) (now fuel distance : Nat) (useComp : Bool) (ps : List (MStream × List UInt8)) (hist : List (Nat × QSample)) (m : Mux)
    (H : History ts hn fuel distance useComp ps hist m) :
    ∃ file, movieFile ts hn now (streamsOf ps m) m.mdat = some file ∧
      (file.length < 2 ^ 32 → ∃ mv, Spec.movie file = some mv ∧
        ∀ (i : Nat) (p : MStream × List UInt8), ps[i]? = some p → ∃ (s : IStream) (t : Spec.Track) (qs : List QSample), m.streams[i]? = some s ∧ mv.tracks[i]? = some t ∧ qs ++ s.queue = ofStream i hist ∧
          ∀ f z, qs.head? = some f → qs.getLast? = some z → 0 ≤ f.composition ∧ f.composition ≤ z.composition ∧ z.composition < 2 ^ 63 →
            t.mediaDuration = ts p.1.scale (z.composition - f.composition).toNat ∧
            t.duration = ts p.1.mvhdScale (z.composition - f.composition).toNat + ts p.1.mvhdScale p.1.streamOffset) := by
  obtain ⟨file, hf, hread⟩ := history_read now H
  refine ⟨file, hf, fun hlen => ?_⟩
  obtain ⟨mv, h1, _, _, hnext, h2, h3⟩ := hread hlen
  refine ⟨mv, h1, ?_⟩
  intro i p hp
  obtain ⟨s, hs, hq, hm, hd⟩ := h3 i p hp
  refine ⟨s, _, s.written.map (·.1), hs, hm, hq, ?_⟩
  intro f z hf hz hc
  rw [List.head?_map, Option.map_eq_some_iff] at hf
  rw [List.getLast?_map, Option.map_eq_some_iff] at hz
  obtain ⟨f', hf', rfl⟩ := hf
  obtain ⟨z', hz', rfl⟩ := hz
  have hdur := duration_eq p.1 s f' z' hf' hz' hc
  have e1 : (streamOf p.1 s).scale = p.1.scale := rfl
  have e2 : (streamOf p.1 s).mvhdScale = p.1.mvhdScale := rfl
  have e3 : (streamOf p.1 s).streamOffset = p.1.streamOffset := rfl
  exact ⟨by rw [trackOf, hdur, e1], by rw [trackOf, hdur, e2, e3]⟩

namespace Sample

/-- `History` with a concrete file: module Props, `met`. The first and last composition times of the video stream there: -/
example : (mux.streams[0]?).map (fun s => (s.written.head?.map (·.1.composition), s.written.getLast?.map (·.1.composition))) = some (some 400000, some 800000) := by decide

/-- C129 is false of the code: three frames of 40 ms each, announced as 40 ms (the last frame is left out, and with reordered frames the last one written is not the last one shown). -/
theorem duration_witness : (Spec.movie file).map (fun mv => mv.tracks.map fun t => (t.mediaDuration, (t.samples.map (·.duration)).sum)) = some [(40, 120), (426666, 639999)] := by decide +kernel

/-- C129 is false of the code: the movie header has the duration of the shortest stream (14496-12, 8.2.2.3 asks for the longest track). -/
theorem movie_duration_witness : (Spec.movie file).map (fun mv => (mv.duration, mv.tracks.map fun t => t.duration)) = some (40, [40, 542]) := by decide +kernel

/-- With reordered frames the last written can be shown before the first: the duration is then a huge number, cut to 32 bits. -/
theorem duration_underflow_witness : (streamOf video { written := [(⟨800000, 0, true, [1]⟩, 0), (⟨400000, 400000, false, [2, 3]⟩, 1)] }).duration = 2 ^ 64 - 400000 := by decide +kernel

/-- One stream whose samples have all the same size, as raw or padded audio has: the size table has no entries, a strict reader refuses the file (C13). -/
theorem equal_sizes_witness :
    ∃ f, movieFile ts hn 5 [streamOf audio { written := [(⟨0, 0, false, [1, 2]⟩, 0), (⟨400000, 400000, false, [3, 4]⟩, 2)] }] [1, 2, 3, 4] = some f ∧ Spec.movie f = none := by
  refine ⟨(movieFile ts hn 5 [streamOf audio { written := [(⟨0, 0, false, [1, 2]⟩, 0), (⟨400000, 400000, false, [3, 4]⟩, 2)] }] [1, 2, 3, 4]).getD [], ?_⟩
  decide +kernel

/-- A video stream without key frames: no table of sync samples is written, so that every frame is taken for a key frame. -/
theorem no_key_frame_witness :
    ∃ f, movieFile ts hn 5 [streamOf video { written := [(⟨0, 0, false, [1, 2]⟩, 0), (⟨400000, 400000, false, [3]⟩, 2)] }] [1, 2, 3] = some f ∧
      (Spec.movie f).map (fun mv => mv.tracks.map fun t => t.samples.map (·.sync)) = some [[true, true]] := by
  refine ⟨(movieFile ts hn 5 [streamOf video { written := [(⟨0, 0, false, [1, 2]⟩, 0), (⟨400000, 400000, false, [3]⟩, 2)] }] [1, 2, 3]).getD [], ?_⟩
  decide +kernel

/-- One sample only: the table of durations has two (C11), a strict reader refuses the file. -/
theorem one_sample_witness :
    ∃ f, movieFile ts hn 5 [streamOf video { written := [(⟨0, 0, true, [1, 2]⟩, 0)] }] [1, 2] = some f ∧ Spec.movie f = none := by
  refine ⟨(movieFile ts hn 5 [streamOf video { written := [(⟨0, 0, true, [1, 2]⟩, 0)] }] [1, 2]).getD [], ?_⟩
  decide +kernel

/-- Audio at 96 kHz is announced as 30464 Hz: the rate is shifted out of its 32 bits (`set_samplerate`, mp4/mp4.fl 680). -/
theorem sample_rate_witness :
    ∃ f, movieFile ts hn 5 [streamOf { audio with kind := .audio 96000 2 (box (fourcc 'e' 's' 'd' 's') [9]) } { written := [(⟨0, 0, false, [1, 2]⟩, 0), (⟨400000, 400000, false, [3]⟩, 2)] }] [1, 2, 3] = some f ∧
      (Spec.movie f).map (fun mv => mv.tracks.map fun t => t.descriptions.map (·.media)) = some [[.audio 2 30464, .audio 2 30464]] := by
  refine ⟨(movieFile ts hn 5 [streamOf { audio with kind := .audio 96000 2 (box (fourcc 'e' 's' 'd' 's') [9]) } { written := [(⟨0, 0, false, [1, 2]⟩, 0), (⟨400000, 400000, false, [3]⟩, 2)] }] [1, 2, 3]).getD [], ?_⟩
  decide +kernel

end Sample
end Verif.Movie

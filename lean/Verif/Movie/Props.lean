import Verif.Movie.File
/-
The movie file, from the samples added to the writer to what a player gets (modules Interleave, Tables and Movie put together).
-/
namespace Verif.Movie
open Verif.Cenc.Spec (be)
open Verif.Fragment (box fourcc full)
open Verif.Tables (SampleIn sub64 writeAll flush deltas ScaleDown HnanoDown)
open Verif.Interleave (QSample IStream Mux addAll toU64)
open Verif.Interleave.Spec (ofStream place bytes)

/-! ### Bytes -/

theorem place_data : ∀ (log : List (Nat × QSample)) (pre : List UInt8) (x : Nat × QSample × Nat), x ∈ place pre.length log →
    ((pre ++ bytes log).drop x.2.2).take x.2.1.body.length = x.2.1.body ∧ x.2.2 + x.2.1.body.length ≤ (pre ++ bytes log).length
  | [], pre, x, hx => by simp [place] at hx
  | (i, q) :: log, pre, x, hx => by
    simp only [place, List.mem_cons] at hx
    have e : pre ++ bytes ((i, q) :: log) = (pre ++ q.body) ++ bytes log := by simp [bytes]
    rcases hx with rfl | hx
    · simp only
      refine ⟨?_, by simp [bytes]⟩
      rw [e, List.append_assoc, List.drop_left, List.take_left]
    · rw [← List.length_append] at hx
      rw [e]
      exact place_data log (pre ++ q.body) x hx

/-! ### The file of a history -/

/-- What `sample_written` is told of a sample (mp4write.h 984-987): the times as unsigned numbers, the key frame flag, the size and the position of the body. -/
def told (x : QSample × Nat) : SampleIn := ⟨toU64 x.1.composition, toU64 x.1.decoding, x.1.sync, x.1.body.length, x.2⟩

/-- A stream of the file: the parameters `p`, the tables of the samples that the writer has written for it. -/
def streamOf (p : MStream) (s : IStream) : MStream := { p with w := writeAll { visual := p.kind.visual? } (s.written.map told) }

/-- Duration and composition offset of a sample, as the tables have them, for the stream `p`. -/
def offsetOf (ts : Nat → Nat → Nat) (p : MStream) (q : QSample) : Nat := ts p.scale ((sub64 (toU64 q.composition) (toU64 q.decoding) + p.ctts) % 2 ^ 64)

/-- The steps from sample to sample as the writer measures them. -/
def stepsOf (ts hn : Nat → Nat → Nat) (p : MStream) (qs : List QSample) : List Nat := deltas (ts p.scale) (hn p.scale) 0 (qs.map fun q => toU64 q.decoding)

/-- The conditions on the samples of a stream under which the tables are complete (each is needed, see the `_witness` theorems): two sizes, a key frame in a video stream, numbers that fit their fields. -/
structure Good (ts hn : Nat → Nat → Nat) (p : MStream) (qs : List QSample) : Prop where
  sizes : ∃ a b, a ∈ qs ∧ b ∈ qs ∧ a.body.length ≠ b.body.length
  key : p.kind.visual? = true → ∃ q ∈ qs, q.sync = true
  zero : ts p.scale 0 = 0
  steps : ∀ d ∈ stepsOf ts hn p qs, d < 2 ^ 32
  offsets : ∀ q ∈ qs, offsetOf ts p q < 2 ^ 32

theorem ofStream_mem {α : Type} (i : Nat) (l : List (Nat × α)) (x : α) (h : x ∈ ofStream i l) : (i, x) ∈ l := by
  simp only [ofStream, List.mem_map, List.mem_filter] at h
  obtain ⟨⟨j, y⟩, ⟨h1, h2⟩, rfl⟩ := h
  simp only [beq_iff_eq] at h2
  subst h2; exact h1

theorem seen_eq (body : List UInt8) (ts : Nat → Nat → Nat) (p : MStream) (v : Bool) : ∀ (ws : List (QSample × Nat)) (D : List Nat),
    (∀ x ∈ ws, (body.drop x.2).take x.1.body.length = x.1.body) →
    seen body (fun z => ts p.scale ((sub64 z.composition z.decoding + p.ctts) % 2 ^ 64)) v (ws.map told) D =
      List.zipWith (fun q d => ⟨q.body, 1, d, offsetOf ts p q, !v || q.sync⟩) (ws.map (·.1)) D
  | [], D, _ => rfl
  | x :: ws, [], _ => by simp [seen]
  | x :: ws, d :: D, h => by
    have ih := seen_eq body ts p v ws D fun y hy => h y (by simp [hy])
    have h0 := h x (by simp)
    simp only [seen, List.map_cons, List.zipWith_cons_cons] at ih ⊢
    rw [ih]
    simp only [told, h0, offsetOf]

theorem shifted_length : ∀ D : List Nat, (shifted D).length = D.length
  | [] => rfl
  | d :: l => by simp [shifted]

theorem deltas_length (ts hn : Nat → Nat) : ∀ (l : List Nat) (p : Nat), (deltas ts hn p l).length = l.length
  | [], p => rfl
  | d :: l, p => by simp [deltas, deltas_length ts hn l]

theorem stream_complete (ts hn : Nat → Nat → Nat) (p : MStream) (s : IStream) (body : List UInt8) (hb : ∀ x ∈ s.written, x.2 + x.1.body.length ≤ body.length)
    (g : Good ts hn p (s.written.map (·.1))) : Complete ts hn (streamOf p s) p.kind.visual? (s.written.map told) body := by
  refine ⟨rfl, ?_, ?_, ?_, g.zero, ?_, ?_⟩
  · obtain ⟨a, b, ha, hb, hne⟩ := g.sizes
    obtain ⟨x, hx, rfl⟩ := List.mem_map.1 ha
    obtain ⟨y, hy, rfl⟩ := List.mem_map.1 hb
    exact ⟨told x, told y, List.mem_map.2 ⟨x, hx, rfl⟩, List.mem_map.2 ⟨y, hy, rfl⟩, hne⟩
  · intro hv
    obtain ⟨q, hq, hs⟩ := g.key hv
    obtain ⟨x, hx, rfl⟩ := List.mem_map.1 hq
    exact ⟨told x, List.mem_map.2 ⟨x, hx, rfl⟩, hs⟩
  · intro z hz
    obtain ⟨x, hx, rfl⟩ := List.mem_map.1 hz
    exact hb x hx
  · have h := g.steps
    simp only [stepsOf, List.map_map, Function.comp_def] at h
    simp only [List.map_map, Function.comp_def, streamOf, told]
    exact h
  · intro z hz
    obtain ⟨x, hx, rfl⟩ := List.mem_map.1 hz
    exact g.offsets x.1 (List.mem_map.2 ⟨x, hx, rfl⟩)

/-- The streams of the file. -/
def streamsOf (ps : List (MStream × List UInt8)) (m : Mux) : List MStream := List.zipWith (fun p s => streamOf p.1 s) ps m.streams

/-- A history of `add_sample` calls that returned, with streams of parameters `ps` (and decoder configurations) whose written samples are `Good` and fit. -/
structure History (ts hn : Nat → Nat → Nat) (fuel distance : Nat) (useComp : Bool) (ps : List (MStream × List UInt8)) (hist : List (Nat × QSample)) (m : Mux) : Prop where
  added : addAll fuel (Mux.new ((List.range ps.length).map fun _ => {}) distance useComp) hist = some m
  good : ∀ (i : Nat) (p : MStream × List UInt8) (s : IStream), ps[i]? = some p → m.streams[i]? = some s → Good ts hn p.1 (s.written.map (·.1)) ∧ Fits ts (streamOf p.1 s) p.2
  count : ps.length + 1 < 2 ^ 32
  duration : ts 1000 (minDuration (streamsOf ps m)) < 2 ^ 32

theorem history_read {ts hn : Nat → Nat → Nat} {fuel distance : Nat} {useComp : Bool} {ps : List (MStream × List UInt8)} {hist : List (Nat × QSample)} {m : Mux} (now : Nat)
    (H : History ts hn fuel distance useComp ps hist m) :
    ∃ file, movieFile ts hn now (streamsOf ps m) m.mdat = some file ∧
      (file.length < 2 ^ 32 → ∃ mv, Spec.movie file = some mv ∧ mv.scale = 1000 ∧ mv.duration = ts 1000 (minDuration (streamsOf ps m)) ∧ mv.nextTrack = ps.length + 1 ∧ mv.tracks.length = ps.length ∧
        ∀ (i : Nat) (p : MStream × List UInt8), ps[i]? = some p → ∃ s : IStream, m.streams[i]? = some s ∧ s.written.map (·.1) ++ s.queue = ofStream i hist ∧
          mv.tracks[i]? = some (trackOf ts hn (streamOf p.1 s) p.1.kind.visual? (s.written.map told) p.2 m.mdat) ∧
          (∀ x ∈ s.written, (m.mdat.drop x.2).take x.1.body.length = x.1.body)) := by
  obtain ⟨hadd, hgood, hcount, hdur⟩ := H
  obtain ⟨hl, log, hmdat, _, hstr⟩ := Verif.Interleave.interleaving_conserves ps.length distance useComp (fun _ => false) fuel hist m hadd
  obtain ⟨gs, hgs⟩ : ∃ gs : List Given, gs = List.zipWith (fun p s => ⟨streamOf p.1 s, p.1.kind.visual?, s.written.map told, p.2⟩) ps m.streams := ⟨_, rfl⟩
  have hmap : gs.map (·.s) = streamsOf ps m := by
    rw [hgs, List.map_zipWith, streamsOf]
  have hgl : gs.length = ps.length := by rw [hgs, List.length_zipWith, hl]; simp
  have hdata : ∀ (i : Nat) (s : IStream), m.streams[i]? = some s → ∀ x ∈ s.written, (m.mdat.drop x.2).take x.1.body.length = x.1.body ∧ x.2 + x.1.body.length ≤ m.mdat.length := by
    intro i s hs x hx
    rw [(hstr i s hs).1] at hx
    have := place_data log [] (i, x) (ofStream_mem i _ x hx)
    rw [hmdat]; exact this
  have hall : ∀ g ∈ gs, Complete ts hn g.s g.visual g.xs m.mdat ∧ Fits ts g.s g.config := by
    intro g hg
    obtain ⟨i, hi⟩ := List.mem_iff_getElem?.1 hg
    rw [hgs, List.getElem?_zipWith] at hi
    cases hp : ps[i]? with
    | none => rw [hp] at hi; simp at hi
    | some p =>
      cases hs : m.streams[i]? with
      | none => rw [hp, hs] at hi; simp at hi
      | some s =>
        rw [hp, hs] at hi
        simp only [Option.some.injEq] at hi
        subst hi
        obtain ⟨g1, g2⟩ := hgood i p s hp hs
        exact ⟨stream_complete ts hn p.1 s m.mdat (fun x hx => (hdata i s hs x hx).2) g1, g2⟩
  obtain ⟨file, hf, hread⟩ := movie_read ts hn now m.mdat gs hall (by rw [hgl]; exact hcount) (by rw [hmap]; exact hdur)
  rw [hmap] at hf hread
  refine ⟨file, hf, fun hlen => ⟨_, hread hlen, rfl, rfl, by simp [hgl], by simp [hgl], ?_⟩⟩
  intro i p hp
  have hilt : i < m.streams.length := by rw [hl]; exact (List.getElem?_eq_some_iff.1 hp).1
  obtain ⟨s, hs⟩ : ∃ s, m.streams[i]? = some s := ⟨_, List.getElem?_eq_getElem hilt⟩
  have hg : gs[i]? = some ⟨streamOf p.1 s, p.1.kind.visual?, s.written.map told, p.2⟩ := by
    rw [hgs, List.getElem?_zipWith, hp, hs]
  exact ⟨s, hs, (hstr i s hs).2, by rw [List.getElem?_map, hg]; rfl, fun x hx => (hdata i s hs x hx).1⟩

/-- C127 (partial: `History` asks for `Good` and `Fits`; files below 4 GB). Whatever samples were added to the writer, in whatever order of the streams and with whatever distance of interleaving: the file that
`end` makes of the samples written so far exists and is read by a strict ISO reader as a movie with one track per stream, in order. The samples of a track are exactly the bodies that were added to its stream, in
order, each once, less those that were still in the queue; each refers to the first sample description, has the key frame flag that was given (all, for audio), the composition offset and the measured duration. -/
theorem movie_round_trip_partial (ts hn : Nat → Nat → Nat) (now fuel distance : Nat) (useComp : Bool) (ps : List (MStream × List UInt8)) (hist : List (Nat × QSample)) (m : Mux)
    (H : History ts hn fuel distance useComp ps hist m) :
    ∃ file, movieFile ts hn now (streamsOf ps m) m.mdat = some file ∧
      (file.length < 2 ^ 32 → ∃ mv, Spec.movie file = some mv ∧ mv.tracks.length = ps.length ∧
        ∀ (i : Nat) (p : MStream × List UInt8), ps[i]? = some p → ∃ (s : IStream) (t : Spec.Track) (qs : List QSample), m.streams[i]? = some s ∧ mv.tracks[i]? = some t ∧
          qs ++ s.queue = ofStream i hist ∧
          t.samples.map (·.data) = qs.map (·.body) ∧
          t.samples.map (·.sync) = qs.map (fun q => !p.1.kind.visual? || q.sync) ∧
          t.samples.map (·.offset) = qs.map (offsetOf ts p.1) ∧
          t.samples.map (·.duration) = shifted (stepsOf ts hn p.1 qs) ∧
          ∀ x ∈ t.samples, x.description = 1) := by
  obtain ⟨file, hf, hread⟩ := history_read now H
  refine ⟨file, hf, fun hlen => ?_⟩
  obtain ⟨mv, h1, _, _, _, h2, h3⟩ := hread hlen
  refine ⟨mv, h1, h2, ?_⟩
  intro i p hp
  obtain ⟨s, hs, hq, hm, hd⟩ := h3 i p hp
  have ht : (trackOf ts hn (streamOf p.1 s) p.1.kind.visual? (s.written.map told) p.2 m.mdat).samples =
      List.zipWith (fun q d => ⟨q.body, 1, d, offsetOf ts p.1 q, !p.1.kind.visual? || q.sync⟩) (s.written.map (·.1)) (shifted (stepsOf ts hn p.1 (s.written.map (·.1)))) := by
    have := seen_eq m.mdat ts p.1 p.1.kind.visual? s.written (shifted (stepsOf ts hn p.1 (s.written.map (·.1)))) hd
    rw [← this]
    simp only [trackOf, streamOf, stepsOf, List.map_map, Function.comp_def, told]
  have hlen' : (s.written.map (·.1)).length = (shifted (stepsOf ts hn p.1 (s.written.map (·.1)))).length := by
    rw [shifted_length, stepsOf, deltas_length]; simp
  refine ⟨s, _, s.written.map (·.1), hs, hm, hq, ?_, ?_, ?_, ?_, ?_⟩
  · simp only [ht, List.map_zipWith]
    exact List.ext_getElem (by simp at hlen' ⊢; omega) (by simp)
  · simp only [ht, List.map_zipWith]
    exact List.ext_getElem (by simp at hlen' ⊢; omega) (by simp)
  · simp only [ht, List.map_zipWith]
    exact List.ext_getElem (by simp at hlen' ⊢; omega) (by simp)
  · simp only [ht, List.map_zipWith]
    exact List.ext_getElem (by simp at hlen' ⊢; omega) (by simp)
  · intro x hx
    rw [ht] at hx
    obtain ⟨j, hj⟩ := List.mem_iff_getElem?.1 hx
    rw [List.getElem?_zipWith] at hj
    split at hj
    · simp only [Option.some.injEq] at hj; rw [← hj]
    · simp at hj

/-! ### Times -/

theorem shifted_sum (d : Nat) (l : List Nat) (j : Nat) (hj : j ≤ l.length) : d + ((shifted (d :: l)).take j).sum = ((d :: l).take (j + 1)).sum := by
  rw [shifted, List.take_append_of_le_length hj, List.take_succ_cons, List.sum_cons]

/-- C127, times: when the units per second divide 10^7, the time at which the table has sample `j` (the durations of the samples before it), counted from the first sample, is its decoding time rounded down, less
than `e` units behind: no drift however long the track. `D` is the time of the first sample in units. -/
theorem movie_times_partial (ts hn : Nat → Nat → Nat) (e : Nat) (p : MStream) (qs : List QSample) (hT : 0 < p.scale) (hdvd : p.scale ∣ 10000000) (hts : ScaleDown (ts p.scale) p.scale e)
    (hhn : HnanoDown (hn p.scale) p.scale) (hnn : ∀ q ∈ qs, 0 ≤ q.decoding ∧ q.decoding < 2 ^ 63) (hsorted : qs.Pairwise fun a b => a.decoding ≤ b.decoding) (j : Nat) (q : QSample) (hq : qs[j]? = some q) :
    ∃ D, (∀ f, qs[0]? = some f → D = ts p.scale f.decoding.toNat) ∧
      (D + ((shifted (stepsOf ts hn p qs)).take j).sum) * 10000000 ≤ q.decoding.toNat * p.scale ∧
      q.decoding.toNat * p.scale < (D + ((shifted (stepsOf ts hn p qs)).take j).sum + e) * 10000000 := by
  have hU : ∀ q ∈ qs, toU64 q.decoding = q.decoding.toNat ∧ q.decoding.toNat < 2 ^ 63 := by
    intro q hq
    obtain ⟨h0, h1⟩ := hnn q hq
    refine ⟨?_, by omega⟩
    rw [toU64, Int.emod_eq_of_lt h0 (by omega)]
  have hmap : (qs.map fun q => toU64 q.decoding) = qs.map fun q => q.decoding.toNat := List.map_congr_left fun q hq => (hU q hq).1
  have hs : (qs.map fun q => q.decoding.toNat).Pairwise (· ≤ ·) := by
    rw [List.pairwise_map]
    refine hsorted.imp ?_
    intro a b h; omega
  have hd := Verif.Tables.stts_no_drift (ts p.scale) (hn p.scale) p.scale e hT hdvd hts hhn (qs.map fun q => q.decoding.toNat) hs (by
    intro d hd; obtain ⟨q, hq, rfl⟩ := List.mem_map.1 hd; have := (hU q hq).2; omega) j q.decoding.toNat (by rw [List.getElem?_map, hq]; rfl)
  obtain ⟨f, rest, rfl⟩ : ∃ f rest, qs = f :: rest := List.exists_cons_of_ne_nil (by intro h; rw [h] at hq; simp at hq)
  refine ⟨ts p.scale f.decoding.toNat, by intro g hg; simp at hg; rw [hg], ?_⟩
  have hjl : j < (f :: rest).length := (List.getElem?_eq_some_iff.1 hq).1
  rw [stepsOf, hmap]
  rw [List.map_cons, deltas] at hd ⊢
  have hf : sub64 f.decoding.toNat 0 = f.decoding.toNat := by
    have := (hU f (by simp)).2
    rw [sub64]; simp; omega
  rw [hf] at hd ⊢
  rw [shifted_sum _ _ j (by rw [deltas_length]; simp at hjl ⊢; omega)]
  exact hd

/-! ### Parameters -/

/-- C128 (partial: `History`; `Fits` limits the audio rate, see `sample_rate_witness`). The reader gets for every stream, in order, an enabled track with the number that was given plus one, the units per
second, the language, the type of media, the dimensions, the volume, and the sample descriptions: codec, dimensions or channels and rate, the exact decoder configuration; for an encrypted stream first the
encrypted description with scheme cenc, 8 byte vectors and the key identifier. The numbers of the tracks stay below the number announced for the next one when the streams are numbered from 0. -/
theorem movie_parameters_partial (ts hn : Nat → Nat → Nat) (now fuel distance : Nat) (useComp : Bool) (ps : List (MStream × List UInt8)) (hist : List (Nat × QSample)) (m : Mux)
    (H : History ts hn fuel distance useComp ps hist m) :
    ∃ file, movieFile ts hn now (streamsOf ps m) m.mdat = some file ∧
      (file.length < 2 ^ 32 → ∃ mv, Spec.movie file = some mv ∧ mv.nextTrack = ps.length + 1 ∧
        ∀ (i : Nat) (p : MStream × List UInt8), ps[i]? = some p → ∃ t : Spec.Track, mv.tracks[i]? = some t ∧
          t.enabled = true ∧ t.id = p.1.id + 1 ∧ t.scale = p.1.scale ∧ t.language = [p.1.lang.1, p.1.lang.2.1, p.1.lang.2.2] ∧
          (∀ width height config name, p.1.kind = .visual width height config name →
            t.handler = "vide".toList ∧ t.volume = 0 ∧ t.width = width * 2 ^ 16 ∧ t.height = height * 2 ^ 16 ∧
            t.descriptions = (match p.1.kid with
              | none => [⟨"avc1".toList, .video width height, config, none⟩]
              | some kid => [⟨"avc1".toList, .video width height, config, some ("cenc".toList, 8, kid)⟩, ⟨"avc1".toList, .video width height, config, none⟩])) ∧
          (∀ rate channels config, p.1.kind = .audio rate channels (box (fourcc 'e' 's' 'd' 's') config) → p.2 = config →
            t.handler = "soun".toList ∧ t.volume = 0x0100 ∧ t.width = 0 ∧ t.height = 0 ∧
            t.descriptions = (match p.1.kid with
              | none => [⟨"mp4a".toList, .audio channels rate, config, none⟩]
              | some kid => [⟨"mp4a".toList, .audio channels rate, config, some ("cenc".toList, 8, kid)⟩, ⟨"mp4a".toList, .audio channels rate, config, none⟩]))) := by
  obtain ⟨file, hf, hread⟩ := history_read now H
  refine ⟨file, hf, fun hlen => ?_⟩
  obtain ⟨mv, h1, _, _, hnext, h2, h3⟩ := hread hlen
  refine ⟨mv, h1, hnext, ?_⟩
  intro i p hp
  obtain ⟨s, hs, hq, hm, hd⟩ := h3 i p hp
  have hfit := (H.good i p s hp hs).2
  refine ⟨_, hm, rfl, rfl, rfl, rfl, ?_, ?_⟩
  · intro width height config name hk
    have hc : p.2 = config := by
      have := hfit.kind
      simp only [streamOf, hk, KindOk] at this
      exact this.2.2.1.symm
    refine ⟨by simp only [trackOf, streamOf, hk], by simp only [trackOf, streamOf, hk, Kind.header], by simp only [trackOf, streamOf, hk, Kind.header], by simp only [trackOf, streamOf, hk, Kind.header], ?_⟩
    simp only [trackOf, streamOf, descriptionsOf, hk, hc]
    cases hkid : p.1.kid with
    | none => simp only [Option.isSome_none, Bool.false_eq_true, if_false]; rfl
    | some kid => simp only [Option.isSome_some, if_true]; rfl
  · intro rate channels config hk hc
    refine ⟨by simp only [trackOf, streamOf, hk], by simp only [trackOf, streamOf, hk, Kind.header], by simp only [trackOf, streamOf, hk, Kind.header, Nat.zero_mul],
      by simp only [trackOf, streamOf, hk, Kind.header, Nat.zero_mul], ?_⟩
    simp only [trackOf, streamOf, descriptionsOf, hk, hc]
    cases hkid : p.1.kid with
    | none => simp only [Option.isSome_none, Bool.false_eq_true, if_false]; rfl
    | some kid => simp only [Option.isSome_some, if_true]; rfl

/-- C128, start of a stream: a stream that begins `streamOffset` after the movie gets an empty edit of that length and then its media from the start; other streams get no edit list. -/
theorem movie_edits_partial (ts hn : Nat → Nat → Nat) (now fuel distance : Nat) (useComp : Bool) (ps : List (MStream × List UInt8)) (hist : List (Nat × QSample)) (m : Mux)
    (H : History ts hn fuel distance useComp ps hist m) :
    ∃ file, movieFile ts hn now (streamsOf ps m) m.mdat = some file ∧
      (file.length < 2 ^ 32 → ∃ mv, Spec.movie file = some mv ∧
        ∀ (i : Nat) (p : MStream × List UInt8), ps[i]? = some p → ∃ t : Spec.Track, mv.tracks[i]? = some t ∧
          (p.1.streamOffset = 0 → t.edits = []) ∧
          (p.1.streamOffset ≠ 0 → ∃ d, t.edits = [⟨ts p.1.mvhdScale p.1.streamOffset, none, 0x10000⟩, ⟨d, some 0, 0x10000⟩] ∧ t.duration = ts p.1.mvhdScale p.1.streamOffset + d)) := by
  obtain ⟨file, hf, hread⟩ := history_read now H
  refine ⟨file, hf, fun hlen => ?_⟩
  obtain ⟨mv, h1, _, _, hnext, h2, h3⟩ := hread hlen
  refine ⟨mv, h1, ?_⟩
  intro i p hp
  obtain ⟨s, hs, hq, hm, hd⟩ := h3 i p hp
  refine ⟨_, hm, ?_, ?_⟩
  · intro h; simp only [trackOf, editsWanted, streamOf, h, if_true]
  · intro h
    refine ⟨ts p.1.mvhdScale (streamOf p.1 s).duration, ?_, ?_⟩
    · show editsWanted ts (streamOf p.1 s) = _
      rw [editsWanted, if_neg (show ¬(streamOf p.1 s).streamOffset = 0 from h)]
      rfl
    · exact Nat.add_comm _ _

/-! ### A concrete history -/

namespace Sample

/-- Conversions without floating point. -/
def ts (T x : Nat) : Nat := x * T / 10000000
def hn (T d : Nat) : Nat := d * 10000000 / T

def video : MStream := { w := {}, kind := .visual 640 480 [1, 100, 0, 31] (List.replicate 31 0), id := 0, scale := 1000 }
def audio : MStream :=
  { w := {}, kind := .audio 48000 2 (box (fourcc 'e' 's' 'd' 's') [9, 8, 7]), id := 1, scale := 10000000, streamOffset := 5000000, kid := some (List.replicate 16 7), lang := ('i', 't', 'a') }
def ps : List (MStream × List UInt8) := [(video, [1, 100, 0, 31]), (audio, [9, 8, 7])]

/-- Video with reordered frames, audio that starts half a second late; one sample stays in the queue. -/
def hist : List (Nat × QSample) :=
  [(0, ⟨400000, 0, true, [1, 2, 3]⟩), (1, ⟨0, 0, false, [5]⟩), (0, ⟨1200000, 400000, false, [4]⟩), (1, ⟨213333, 213333, false, [6, 7]⟩), (0, ⟨800000, 800000, false, [8, 9]⟩),
   (1, ⟨426666, 426666, false, [10, 11]⟩), (0, ⟨99000000, 98000000, true, [12]⟩)]

def mux : Mux :=
  { streams := [
      { queue := [⟨99000000, 98000000, true, [12]⟩], written := [(⟨400000, 0, true, [1, 2, 3]⟩, 1), (⟨1200000, 400000, false, [4]⟩, 4), (⟨800000, 800000, false, [8, 9]⟩, 7)], sampleMax := 1200000 },
      { queue := [], written := [(⟨0, 0, false, [5]⟩, 0), (⟨213333, 213333, false, [6, 7]⟩, 5), (⟨426666, 426666, false, [10, 11]⟩, 9)], sampleMax := 426666 }],
    mdat := [5, 1, 2, 3, 4, 6, 7, 8, 9, 10, 11], maxTime := 426666, maxUsed := 426666, distance := 10000000, useComp := true }

/-- the hypothesis of the theorems is met -/
theorem met : History ts hn 20 10000000 true ps hist mux := by
  refine ⟨?_, ?_, by decide, by decide⟩
  · rfl
  · intro i p s hp hs
    match i with
    | 0 =>
      simp only [ps, mux, List.getElem?_cons_zero, Option.some.injEq] at hp hs
      subst hp; subst hs
      refine ⟨⟨⟨⟨400000, 0, true, [1, 2, 3]⟩, ⟨1200000, 400000, false, [4]⟩, by decide, by decide, by decide⟩, fun _ => ⟨⟨400000, 0, true, [1, 2, 3]⟩, by decide, rfl⟩, by decide, by decide, by decide⟩,
        ⟨⟨by decide, by decide, rfl, by decide⟩, ?_, by decide, by decide, by decide, by decide, by simp only [Letter]; decide⟩⟩
      intro k hk; cases hk
    | 1 =>
      simp only [ps, mux, List.getElem?_cons_zero, List.getElem?_cons_succ, Option.some.injEq] at hp hs
      subst hp; subst hs
      refine ⟨⟨⟨⟨0, 0, false, [5]⟩, ⟨213333, 213333, false, [6, 7]⟩, by decide, by decide, by decide⟩, fun h => (by cases h), by decide, by decide, by decide⟩,
        ⟨⟨by decide, by decide, rfl⟩, ?_, by decide, by decide, by decide, by decide, by simp only [Letter]; decide⟩⟩
      intro k hk
      simp only [streamOf, audio, Option.some.injEq] at hk
      rw [← hk]; rfl
    | n + 2 => simp [ps] at hp

def file : List UInt8 := (movieFile ts hn 5 (streamsOf ps mux) mux.mdat).getD []

/-- the file has 1357 bytes, the reader gets the samples, and the fourth sample of the video, still queued, is not in it -/
example : movieFile ts hn 5 (streamsOf ps mux) mux.mdat = some file ∧ file.length = 1357 ∧
    (Spec.movie file).map (fun mv => mv.tracks.map fun t => t.samples.map fun x => (x.data, x.duration, x.offset, x.sync)) =
      some [[([1, 2, 3], 40, 40, true), ([4], 40, 80, false), ([8, 9], 40, 0, false)], [([5], 213333, 0, true), ([6, 7], 213333, 0, true), ([10, 11], 213333, 0, true)]] := by decide +kernel

/-- and the parameters of the tracks -/
example : (Spec.movie file).map (fun mv => mv.tracks.map fun t => (t.id, t.edits, t.language)) =
    some [(1, [], ['u', 'n', 'd']), (2, [⟨500, none, 65536⟩, ⟨42, some 0, 65536⟩], ['i', 't', 'a'])] := by decide +kernel

example : (Spec.movie file).map (fun mv => mv.tracks.map fun t => t.descriptions) =
    some [[⟨"avc1".toList, .video 640 480, [1, 100, 0, 31], none⟩],
      [⟨"mp4a".toList, .audio 2 48000, [9, 8, 7], some ("cenc".toList, 8, List.replicate 16 7)⟩, ⟨"mp4a".toList, .audio 2 48000, [9, 8, 7], none⟩]] := by decide +kernel

/-- the conversions satisfy the hypotheses of the theorem on times, at 1000 units per second -/
example : ScaleDown (ts video.scale) video.scale 1 ∧ HnanoDown (hn video.scale) video.scale ∧ video.scale ∣ 10000000 :=
  ⟨Verif.Tables.scale_exact 1000, Verif.Tables.hnano_exact 1000 (by decide), ⟨10000, rfl⟩⟩

end Sample

end Verif.Movie

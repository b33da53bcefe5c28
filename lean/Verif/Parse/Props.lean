import Verif.Parse.Assemble
/-
A file made by the writer is opened by the reader, and read to the end (modules Interleave, Tables, Movie, Parse and Reader put together).
-/
namespace Verif.Parse
open Verif.Fragment (box fourcc)
open Verif.Movie (MStream Fits Kind Given streamOf streamsOf told Good History movieFile minDuration offsetOf stepsOf shifted sinfBytes langBits)
open Verif.Interleave (QSample IStream Mux toU64)
open Verif.Interleave.Spec (ofStream)
open Verif.Reader (Track Sample Reader hns readAll)

/-- What the theorems ask: a history of `add_sample` calls as in module Movie, decoder configurations that the reader accepts, and in every stream no sample presented before the first one (see
`movie_first_witness`). -/
structure Readable (ok : Accept) (ts hn : Nat → Nat → Nat) (fuel distance : Nat) (useComp : Bool) (ps : List (MStream × List UInt8)) (hist : List (Nat × QSample)) (m : Mux) : Prop where
  history : History ts hn fuel distance useComp ps hist m
  accepted : ∀ p ∈ ps, Accepted ok p.1.kind p.1.kid ∧ Accepted ok p.1.kind none
  first : ∀ (i : Nat) (p : MStream × List UInt8) (s : IStream), ps[i]? = some p → m.streams[i]? = some s → ∀ (j : Nat) (f q : QSample), (s.written.map (·.1))[0]? = some f → (s.written.map (·.1))[j]? = some q →
    offsetOf ts p.1 f ≤ ((shifted (stepsOf ts hn p.1 (s.written.map (·.1)))).take j).sum + offsetOf ts p.1 q

/-- The streams of a history with what was given to them. -/
def givens (ps : List (MStream × List UInt8)) (m : Mux) : List Given := List.zipWith (fun p s => ⟨streamOf p.1 s, p.1.kind.visual?, s.written.map told, p.2⟩) ps m.streams

theorem steps_told (ts hn : Nat → Nat → Nat) (p : MStream) (s : IStream) : stepsIn ts hn (streamOf p s) (s.written.map told) = shifted (stepsOf ts hn p (s.written.map (·.1))) := by
  simp only [stepsIn, stepsOf, List.map_map, Function.comp_def, told, streamOf]

theorem off_told (ts : Nat → Nat → Nat) (p : MStream) (s : IStream) (x : QSample × Nat) : offOf ts (streamOf p s) (told x) = offsetOf ts p x.1 := rfl

theorem given_parts {ok : Accept} {ts hn : Nat → Nat → Nat} {fuel distance : Nat} {useComp : Bool} {ps : List (MStream × List UInt8)} {hist : List (Nat × QSample)} {m : Mux}
    (R : Readable ok ts hn fuel distance useComp ps hist m) :
    (givens ps m).map (·.s) = streamsOf ps m ∧ (givens ps m).length = ps.length ∧ (∀ g ∈ givens ps m, GivenOk ok ts hn m.mdat g) ∧
      ∀ (i : Nat) (p : MStream × List UInt8), ps[i]? = some p → ∃ s : IStream, m.streams[i]? = some s ∧ s.written.map (·.1) ++ s.queue = ofStream i hist ∧
        (givens ps m)[i]? = some ⟨streamOf p.1 s, p.1.kind.visual?, s.written.map told, p.2⟩ ∧
        ∀ x ∈ s.written, (m.mdat.drop x.2).take x.1.body.length = x.1.body ∧ x.2 + x.1.body.length ≤ m.mdat.length := by
  obtain ⟨⟨hadd, hgood, hcount, hdur⟩, hacc, hfirst⟩ := R
  obtain ⟨hl, log, hmdat, _, hstr⟩ := Verif.Interleave.interleaving_conserves ps.length distance useComp (fun _ => false) fuel hist m hadd
  have hdata : ∀ (i : Nat) (s : IStream), m.streams[i]? = some s → ∀ x ∈ s.written, (m.mdat.drop x.2).take x.1.body.length = x.1.body ∧ x.2 + x.1.body.length ≤ m.mdat.length := by
    intro i s hs x hx
    rw [(hstr i s hs).1] at hx
    have := Verif.Movie.place_data log [] (i, x) (Verif.Movie.ofStream_mem i _ x hx)
    rw [hmdat]; exact this
  refine ⟨by rw [givens, List.map_zipWith, streamsOf], by rw [givens, List.length_zipWith, hl]; simp, ?_, ?_⟩
  · intro g hg
    obtain ⟨i, hi⟩ := List.mem_iff_getElem?.1 hg
    rw [givens, List.getElem?_zipWith] at hi
    cases hp : ps[i]? with
    | none => rw [hp] at hi; simp at hi
    | some p =>
      cases hs : m.streams[i]? with
      | none => rw [hp, hs] at hi; simp at hi
      | some s =>
        rw [hp, hs] at hi
        simp only [Option.some.injEq] at hi
        subst hi
        obtain ⟨g1, g2⟩ := hgood i p s hp hs
        obtain ⟨a1, a2⟩ := hacc p (List.mem_of_getElem? hp)
        refine ⟨Verif.Movie.stream_complete ts hn p.1 s m.mdat (fun x hx => (hdata i s hs x hx).2) g1, g2, a1, a2, ?_⟩
        intro j x z hx hz
        simp only [List.getElem?_map, Option.map_eq_some_iff] at hx hz
        obtain ⟨x, hx, rfl⟩ := hx
        obtain ⟨z, hz, rfl⟩ := hz
        simp only [steps_told, off_told]
        exact hfirst i p s hp hs j x.1 z.1 (by rw [List.getElem?_map, hx]; rfl) (by rw [List.getElem?_map, hz]; rfl)
  · intro i p hp
    have hilt : i < m.streams.length := by rw [hl]; exact (List.getElem?_eq_some_iff.1 hp).1
    obtain ⟨s, hs⟩ : ∃ s, m.streams[i]? = some s := ⟨_, List.getElem?_eq_getElem hilt⟩
    exact ⟨s, hs, (hstr i s hs).2, by rw [givens, List.getElem?_zipWith, hp, hs], hdata i s hs⟩

/-- The name of a sample entry: encrypted or not. -/
def entryName (kind : Kind) (kid : Option (List UInt8)) : Nat :=
  match kind with
  | .visual .. => if kid.isSome then fourcc 'e' 'n' 'c' 'v' else fourcc 'a' 'v' 'c' '1'
  | .audio .. => if kid.isSome then fourcc 'e' 'n' 'c' 'a' else fourcc 'm' 'p' '4' 'a'

/-- C136 (partial: `Readable`; files below 4 GB). Every file that the writer makes is opened by the reader, from its bytes: no exception, and no loop that does not end. The reader gets the units and the duration of the
movie and one track per stream, in order, each with the number, the units, the language, the kind, the dimensions, the start and the sample entries with the decoder configuration that were given to the writer. -/
theorem movie_opens_partial (ok : Accept) (ts hn : Nat → Nat → Nat) (now fuel distance : Nat) (useComp : Bool) (ps : List (MStream × List UInt8)) (hist : List (Nat × QSample)) (m : Mux)
    (R : Readable ok ts hn fuel distance useComp ps hist m) :
    ∃ file, movieFile ts hn now (streamsOf ps m) m.mdat = some file ∧
      (file.length < 2 ^ 32 → ∀ n, file.length ≤ n → ∃ (f : FileRd) (r : Reader), openFile ok n file = .ok (f, r) ∧
        f.scale = 1000 ∧ f.duration = ts 1000 (minDuration (streamsOf ps m)) ∧ r.mdatEnd = file.length ∧ f.tracks.length = ps.length ∧ r.streams.length = ps.length ∧
        ∀ (i : Nat) (p : MStream × List UInt8), ps[i]? = some p → ∃ (t : TrackRd) (T : Track), f.tracks[i]? = some (t, 1000) ∧ r.streams[i]? = some (T, 0) ∧
          t.id = p.1.id + 1 ∧ t.scale = p.1.scale ∧ T.scale = p.1.scale ∧ t.lang = (langBits p.1.lang.1 + 0x60, langBits p.1.lang.2.1 + 0x60, langBits p.1.lang.2.2 + 0x60) ∧
          (p.1.streamOffset = 0 → T.offset = 0) ∧ (p.1.streamOffset ≠ 0 → T.offset = hns (ts p.1.mvhdScale p.1.streamOffset) 1000) ∧
          (∀ width height config name, p.1.kind = .visual width height config name → t.media = some .vide ∧ T.visual = true ∧ t.width = width ∧ t.height = height ∧
            t.entries = .visual (entryName p.1.kind p.1.kid) width height (some config) :: (if p.1.kid.isSome then [.visual (fourcc 'a' 'v' 'c' '1') width height (some config)] else [])) ∧
          (∀ rate channels config, p.1.kind = .audio rate channels config → t.media = some .soun ∧ T.visual = false ∧
            t.entries = .audio (entryName p.1.kind p.1.kid) channels rate (some (config ++ sinfBytes (fourcc 'm' 'p' '4' 'a') p.1.kid)) ::
              (if p.1.kid.isSome then [.audio (fourcc 'm' 'p' '4' 'a') channels rate (some config)] else []))) := by
  obtain ⟨h1, h2, h3, h4⟩ := given_parts R
  obtain ⟨file, hdr, f1, f2, f3⟩ := movie_opened ok ts hn now m.mdat (givens ps m) h3 (by rw [h1]; exact R.history.duration)
  rw [h1] at f1 f3
  refine ⟨file, f1, fun hlen n hfu => ?_⟩
  obtain ⟨f, Ts, o1, o2, o3, o4, o5, o6, o7⟩ := f3 hlen n hfu
  refine ⟨f, _, o1, o3, o4, rfl, by rw [o5, h2], by simp only [List.length_map]; rw [o6, h2], ?_⟩
  intro i p hp
  obtain ⟨s, hs, hq, hg, hd⟩ := h4 i p hp
  obtain ⟨t, T, t1, t2, ⟨⟨es, rfl⟩, e2, e3, e4, e5, e6, e7⟩⟩ := o7 i _ hg
  refine ⟨_, T, t1, by simp only [List.getElem?_map, t2, Option.map_some], rfl, rfl, e3, rfl, ?_, ?_, ?_, ?_⟩
  · intro h0
    have : (streamOf p.1 s).streamOffset = 0 := h0
    simp only [Track.offset, e4, e5, this, if_true, hns]
  · intro h0
    have : ¬ (streamOf p.1 s).streamOffset = 0 := h0
    simp only [Track.offset, e4, e5, this, if_false]
    rfl
  · intro width height config name hk
    have hk' : (streamOf p.1 s).flushed.kind = .visual width height config name := hk
    have hkid : (streamOf p.1 s).flushed.kid = p.1.kid := rfl
    have hv : T.visual = true := by rw [e6]; show p.1.kind.visual? = true; rw [hk]; rfl
    refine ⟨by simp only [trackRd, hk', handlerOfKind], hv, by simp only [trackRd, hk', Kind.header], by simp only [trackRd, hk', Kind.header], ?_⟩
    simp only [trackRd, entriesRd, entryRd, hk', hkid, entryName, hk]
    cases p.1.kid <;> rfl
  · intro rate channels config hk
    have hk' : (streamOf p.1 s).flushed.kind = .audio rate channels config := hk
    have hkid : (streamOf p.1 s).flushed.kid = p.1.kid := rfl
    have hv : T.visual = false := by rw [e6]; show p.1.kind.visual? = false; rw [hk]; rfl
    refine ⟨by simp only [trackRd, hk', handlerOfKind], hv, ?_⟩
    simp only [trackRd, entriesRd, entryRd, hk', hkid, entryName, hk]
    have e : sinfBytes (fourcc 'm' 'p' '4' 'a') none = [] := rfl
    cases p.1.kid <;> simp only [e, List.append_nil] <;> rfl

/-- C137 (partial: `Readable`; files below 4 GB; the last samples can be still in the queue). What was added to the writer comes out of the reader: opening the file and calling `next_file_chunks` until it says that there is no
more delivers, for every stream, exactly the samples that were added to it, in order, each once, less those still in the queue: the bytes of the file at the place it names are the bytes that were added, with the key frame
flag that was given (always, for audio). The decoding time is the sum of the measured durations before the sample, the composition time is later by the offset written for it, both in units of 100 ns. -/
theorem movie_reads_back_partial (ok : Accept) (ts hn : Nat → Nat → Nat) (now fuel distance : Nat) (useComp : Bool) (ps : List (MStream × List UInt8)) (hist : List (Nat × QSample)) (m : Mux)
    (R : Readable ok ts hn fuel distance useComp ps hist m) :
    ∃ file, movieFile ts hn now (streamsOf ps m) m.mdat = some file ∧
      (file.length < 2 ^ 32 → ∀ n, file.length ≤ n → ∃ (f : FileRd) (r : Reader) (bound : Nat), openFile ok n file = .ok (f, r) ∧ ∀ calls, bound ≤ calls → ∃ out, readAll calls r = some out ∧
        (∀ o ∈ out, o.1 < ps.length) ∧
        ∀ (i : Nat) (p : MStream × List UInt8), ps[i]? = some p → ∃ (s : IStream) (qs : List QSample), m.streams[i]? = some s ∧ qs ++ s.queue = ofStream i hist ∧
          (Verif.Reader.Spec.ofStream out i).map (fun x => Verif.Movie.Spec.slice file x.offset x.size) = qs.map (fun q => some q.body) ∧
          (Verif.Reader.Spec.ofStream out i).map (·.sync) = qs.map (fun q => !p.1.kind.visual? || q.sync) ∧
          (Verif.Reader.Spec.ofStream out i).map (·.decoding) = (List.range qs.length).map (fun j => hns ((shifted (stepsOf ts hn p.1 qs)).take j).sum p.1.scale) ∧
          (Verif.Reader.Spec.ofStream out i).map (·.composition) = qs.mapIdx (fun j q => hns (((shifted (stepsOf ts hn p.1 qs)).take j).sum + offsetOf ts p.1 q) p.1.scale)) := by
  obtain ⟨h1, h2, h3, h4⟩ := given_parts R
  obtain ⟨file, hdr, f1, f2, f3⟩ := movie_opened ok ts hn now m.mdat (givens ps m) h3 (by rw [h1]; exact R.history.duration)
  rw [h1] at f1 f3
  refine ⟨file, f1, fun hlen n hfu => ?_⟩
  obtain ⟨f, Ts, o1, o2, o3, o4, o5, o6, o7⟩ := f3 hlen n hfu
  obtain ⟨r, hr⟩ : ∃ r : Reader, r = { streams := Ts.map fun T => (T, 0), mdatEnd := file.length } := ⟨_, rfl⟩
  rw [← hr] at o1
  refine ⟨f, r, Verif.Reader.remaining r.streams + 1, o1, ?_⟩
  obtain ⟨xss, hxss⟩ : ∃ xss, xss = (givens ps m).map fun g => given ts hn g.s g.visual g.xs hdr.length := ⟨_, rfl⟩
  have hxl : xss.length = ps.length := by rw [hxss, List.length_map, h2]
  have hholds : Verif.Reader.Spec.FileHolds r xss := by
    rw [Verif.Reader.Spec.FileHolds, hr, hxss, List.forall₂_map_left_iff, List.forall₂_map_right_iff, List.forall₂_iff_get]
    refine ⟨o6, ?_⟩
    intro i hi1 hi2
    obtain ⟨t, T, _, t2, ht⟩ := o7 i _ (List.getElem?_eq_getElem hi2)
    have : Ts[i]'hi1 = T := by
      rw [List.getElem?_eq_getElem hi1] at t2; exact Option.some.inj t2
    simp only [List.get_eq_getElem, this]
    exact ht.2.1
  have hin : Verif.Reader.Spec.Inside xss r.mdatEnd := by
    intro xs hxs x hx
    rw [hxss] at hxs
    obtain ⟨g, hg, rfl⟩ := List.mem_map.1 hxs
    have hc := (h3 g hg).1.inside
    rw [given, List.mem_mapIdx] at hx
    obtain ⟨j, hj, rfl⟩ := hx
    have := hc (g.xs[j]) (List.getElem_mem hj)
    rw [hr, f2]
    simp only [List.length_append]
    omega
  have hmax : r.mdatEnd < 2 ^ 64 - 1 := by rw [hr]; simp only; omega
  intro calls hcalls
  obtain ⟨out, c1, c2, c3⟩ := Verif.Reader.file_read_complete r xss hholds hin hmax calls (by omega)
  refine ⟨out, c1, by rw [← hxl]; exact c2, ?_⟩
  intro i p hp
  obtain ⟨s, hs, hq, hg, hd⟩ := h4 i p hp
  obtain ⟨t, T, t1, t2, -⟩ := o7 i _ hg
  have hout := c3 i T 0 (given ts hn (streamOf p.1 s) p.1.kind.visual? (s.written.map told) hdr.length) (by rw [hr]; simp only [List.getElem?_map, t2, Option.map_some])
    (by rw [hxss, List.getElem?_map, hg]; rfl)
  rw [List.drop_zero] at hout
  refine ⟨s, s.written.map (·.1), hs, hq, ?_⟩
  rw [hout]
  have hsc : (streamOf p.1 s).scale = p.1.scale := rfl
  simp only [given, steps_told, hsc]
  refine ⟨?_, ?_, ?_, ?_⟩
  · apply List.ext_getElem?
    intro j
    simp only [List.getElem?_map, List.getElem?_mapIdx]
    cases hj : s.written[j]? with
    | none => rfl
    | some x =>
      obtain ⟨d1, d2⟩ := hd x (List.mem_of_getElem? hj)
      simp only [Option.map_some, told, f2]
      rw [Verif.Movie.slice_body hdr m.mdat _ _ d2, d1]
  · apply List.ext_getElem?
    intro j
    simp only [List.getElem?_map, List.getElem?_mapIdx]
    cases s.written[j]? <;> rfl
  · apply List.ext_getElem?
    intro j
    simp only [List.getElem?_map, List.getElem?_mapIdx, List.length_map]
    by_cases hj : j < s.written.length
    · rw [List.getElem?_eq_getElem hj, List.getElem?_range hj]; rfl
    · rw [List.getElem?_eq_none (by omega), List.getElem?_eq_none (by simp; omega)]; rfl
  · apply List.ext_getElem?
    intro j
    simp only [List.getElem?_map, List.getElem?_mapIdx]
    cases s.written[j]? <;> rfl

end Verif.Parse

import Verif.Parse.FileRead
import Verif.Movie.Props
import Verif.Tables.PropsOrder
import Verif.Reader.PropsMove
namespace Verif.Parse
open Verif.Movie (MStream Fits Complete Kind pairList tripleList shifted cat)
open Verif.Tables (SampleIn ChunkDes sub64 u32 stssWords stszWords cttsEntries sttsEntries stscEntries writeAll flush deltas pairWords stscWords parseStts parseCtts parseStsc parseStco parseStsz parseStss isIFrame startOf compTime Comp compsOf CttsRd)
open Verif.Tables.Spec (expand)
open Verif.Reader (Track Sample hns openTrack openCtts openStss)
open Verif.Reader.Spec (Holds)

attribute [local irreducible] sub64

/-! ### The tables of a stream, as they are read -/

/-- The facts on the tables of a stream that the reader needs. -/
structure Facts (ts hn : Nat → Nat → Nat) (s : MStream) (v : Bool) (xs : List SampleIn) (k : Nat) (es : List (Nat × Nat)) : Prop where
  samples : s.flushed.w.samples = xs.map Verif.Tables.des
  stsz : stszWords s.flushed.w = 0 :: (xs.map (·.size)).length :: xs.map (·.size)
  small : ∀ z ∈ xs, z.size < 2 ^ 32 ∧ z.position + k < 2 ^ 32
  chunks : ∀ c ∈ s.flushed.w.chunks, c.position + k < 2 ^ 32
  few : s.flushed.w.chunks.length < 2 ^ 32
  first : ∀ e ∈ es, e.1 < 2 ^ 32

theorem facts (ts hn : Nat → Nat → Nat) (s : MStream) (v : Bool) (xs : List SampleIn) (body : List UInt8) (k : Nat) (es : List (Nat × Nat)) (c : Complete ts hn s v xs body)
    (hes : stscEntries s.flushed.w.chunks s.flushed.allowEmpty = some es) (hlen : xs.length + 5 < 2 ^ 32) (hb : body.length + k < 2 ^ 32) : Facts ts hn s v xs k es := by
  obtain ⟨hw, hdiff, hkey, hin, hzero, hsteps, hoff⟩ := c
  match hxs : xs, hdiff with
  | [], hdiff => obtain ⟨x, _, hx, _⟩ := hdiff; cases hx
  | x :: rest, hdiff =>
    obtain ⟨y, hy, hyne⟩ := Verif.Movie.first_differs hdiff
    have hfw : s.flushed.w = flush (writeAll { visual := v } (x :: rest)) := by rw [MStream.flushed, hw]
    have hsamples : s.flushed.w.samples = (x :: rest).map Verif.Tables.des := by
      rw [hfw, (Verif.Tables.flush_fields _).1, (Verif.Tables.writeAll_fields _ _).1]; rfl
    have hhs : s.flushed.w.hasSize = true := by
      rw [hfw, (Verif.Tables.flush_fields _).2.1]; exact Verif.Tables.hasSize_true x y _ v hy hyne
    have bound : ∀ z ∈ x :: rest, z.size < 2 ^ 32 ∧ z.position + k < 2 ^ 32 := by
      intro z hz
      have := hin z hz
      omega
    obtain ⟨groups, hch, hgpos, hgl, hesl, -⟩ := Verif.Movie.chunks_seen v x rest s.allowEmpty es (by omega) (by rw [← hfw]; exact hes) k
    rw [← hfw] at hch
    refine ⟨hsamples, ?_, bound, ?_, ?_, ?_⟩
    · rw [stszWords, hhs, if_pos rfl, hsamples, List.length_map, List.map_map, List.length_map, u32, Nat.mod_eq_of_lt (by omega)]
      congr 2
      exact List.map_congr_left fun z hz => Nat.mod_eq_of_lt (bound z hz).1
    · intro c hc
      rw [hch] at hc
      obtain ⟨g, hg, rfl⟩ := List.mem_map.1 hc
      obtain ⟨z, hz, hzp⟩ := hgpos g hg
      have := (bound z hz).2
      rw [hzp] at this
      exact this
    · rw [hch, List.length_map]; omega
    · intro e he
      have := hesl e he
      omega

theorem tables_ok (ts hn : Nat → Nat → Nat) (s : MStream) (v : Bool) (xs : List SampleIn) (body : List UInt8) (k : Nat) (es : List (Nat × Nat)) (c : Complete ts hn s v xs body)
    (hes : stscEntries s.flushed.w.chunks s.flushed.allowEmpty = some es) (hlen : xs.length + 5 < 2 ^ 32) (hb : body.length + k < 2 ^ 32) : TablesOk ts hn s.flushed es k := by
  have F := facts ts hn s v xs body k es c hes hlen hb
  refine ⟨Verif.Movie.stts_bound _ _ _ _, fun cs hcs => Verif.Movie.ctts_bound _ _ _ cs hcs, fun x hx => ⟨F.first x hx, Verif.Movie.stsc_bound _ _ es hes x hx⟩, ⟨xs.map (·.size), F.stsz, ?_, ?_⟩, F.chunks, ?_⟩
  · rw [List.length_map]; omega
  · intro z hz
    obtain ⟨w, hw, rfl⟩ := List.mem_map.1 hz
    exact (F.small w hw).1
  · have hfw : s.flushed.w = flush (writeAll { visual := v } xs) := by rw [MStream.flushed, c.written]
    rw [hfw]
    rcases Verif.Movie.stss_seen v xs (by omega) c.key with ⟨h1, -⟩ | ⟨ns, h1, -, h3, h4, -⟩
    · rw [h1]; trivial
    · rw [h1]; exact ⟨ns, rfl, h3, h4⟩

/-! ### Times -/

/-- The vector of the samples after the ctts table. -/
theorem ctts_comps (es cs : List (Nat × Nat)) (hlen : (expand cs).length = (expand es).length)
    (hfirst : ∀ i, i < (expand es).length → compTime (expand es) (expand cs) 0 ≤ compTime (expand es) (expand cs) i) :
    ∃ s : CttsRd, parseCtts (compsOf (expand es)) (pairWords cs) = some s ∧ s.comps = (expand es).mapIdx (fun i d => ⟨startOf (expand es) i, (expand cs).getD i 0, d⟩) := by
  obtain ⟨s, b1, b2, -, -⟩ := Verif.Tables.ctts_flat_inv (expand es) (expand cs) [] { comps := compsOf (expand es) } (by simp [hlen]) rfl
    (by simp [compsOf]) (by simp) (by simp) (by simpa [hlen] using hfirst)
  refine ⟨s, ?_, by simpa using b2⟩
  simp only [parseCtts, pairWords]
  have := Verif.Tables.pairs_words cs []
  rw [List.append_nil] at this
  rw [this]
  simp only [Verif.Tables.cttsOuter_flat]
  exact b1

/-- Composition time less decoding time in units of the track, as written. -/
def offOf (ts : Nat → Nat → Nat) (s : MStream) (z : SampleIn) : Nat := ts s.scale ((sub64 z.composition z.decoding + s.ctts) % 2 ^ 64)

/-- The durations of the samples, as written. -/
def stepsIn (ts hn : Nat → Nat → Nat) (s : MStream) (xs : List SampleIn) : List Nat := shifted (deltas (ts s.scale) (hn s.scale) 0 (xs.map (·.decoding)))

/-- No sample is composed before the first. -/
def FirstLeast (ts hn : Nat → Nat → Nat) (s : MStream) (xs : List SampleIn) : Prop :=
  ∀ (i : Nat) (x z : SampleIn), xs[0]? = some x → xs[i]? = some z → offOf ts s x ≤ ((stepsIn ts hn s xs).take i).sum + offOf ts s z

/-- The samples as the reader gives them: with `k` the place of the media data in the file. -/
def given (ts hn : Nat → Nat → Nat) (s : MStream) (v : Bool) (xs : List SampleIn) (k : Nat) : List Sample :=
  xs.mapIdx fun i z => ⟨z.position + k, z.size, hns (((stepsIn ts hn s xs).take i).sum + offOf ts s z) s.scale, hns ((stepsIn ts hn s xs).take i).sum s.scale,
    hns ((stepsIn ts hn s xs).getD i 0) s.scale, !v || z.sync, i⟩

theorem stts_steps (ts hn : Nat → Nat → Nat) (s : MStream) (v : Bool) (xs : List SampleIn) (body : List UInt8) (c : Complete ts hn s v xs body) (hlen : xs.length + 5 < 2 ^ 32) (allowEmpty : Bool) :
    expand (sttsEntries (ts s.scale) (hn s.scale) allowEmpty (xs.map (·.decoding))) = stepsIn ts hn s xs := by
  obtain ⟨-, hdiff, -, -, -, hsteps, -⟩ := c
  match hxs : xs, hdiff with
  | [], hdiff => obtain ⟨x, _, hx, _⟩ := hdiff; cases hx
  | [a], hdiff =>
    obtain ⟨x, y, hx, hy, hne⟩ := hdiff
    rw [List.mem_singleton.1 hx, List.mem_singleton.1 hy] at hne
    exact absurd rfl hne
  | x :: x1 :: rest, _ =>
    obtain ⟨steps, last, hd1, hd2⟩ := Verif.Tables.stts_written_partial (ts s.scale) (hn s.scale) allowEmpty x.decoding x1.decoding (rest.map (fun z : SampleIn => z.decoding))
      (by simp only [List.length_cons, List.length_map] at hlen ⊢; omega) (fun d hd => hsteps d hd)
    simp only [stepsIn, List.map_cons]
    rw [hd1, hd2]
    simp [shifted]

theorem stepsIn_length (ts hn : Nat → Nat → Nat) (s : MStream) (xs : List SampleIn) : (stepsIn ts hn s xs).length = xs.length := by
  rw [stepsIn, Verif.Movie.shifted_length, Verif.Movie.deltas_length, List.length_map]

theorem first_offset {D O : List Nat} (h : O.length = D.length) (i : Nat) (hi : i < D.length) : compTime D O i = (D.take i).sum + O[i]'(by omega) := by
  rw [compTime, startOf, List.getD_eq_getElem?_getD, List.getElem?_eq_getElem (by omega), Option.getD_some]

theorem holds_given (ts hn : Nat → Nat → Nat) (s : MStream) (v : Bool) (xs : List SampleIn) (k : Nat) (cm : Verif.RangeMap.RMap Verif.Tables.Chunk) (offs : List Nat) (T : Track) (f : Verif.RangeMap.RMap Nat)
    (hsm : T.sm = ⟨cm, 0, xs.length, xs.map (·.size), offs⟩)
    (hco : T.comps = (stepsIn ts hn s xs).mapIdx (fun i e => ⟨startOf (stepsIn ts hn s xs) i, (xs.map (offOf ts s)).getD i 0, e⟩)) (hif : T.iframes = f) (hsc : T.scale = s.scale)
    (g4 : ∀ i z, xs[i]? = some z → (Verif.Tables.SampleManager.mk cm 0 xs.length (xs.map (·.size)) offs).offset i = some (z.position + k) ∧
        (Verif.Tables.SampleManager.mk cm 0 xs.length (xs.map (·.size)) offs).size i = some z.size)
    (f2 : ∀ i z, xs[i]? = some z → isIFrame f i = some (!v || z.sync)) : Holds T (given ts hn s v xs k) := by
  have hdl := stepsIn_length ts hn s xs
  refine Verif.Reader.holds_of _ _ ?_ ?_
  · simp [Track.count, given, hsm]
  · intro n hng
    have hn' : n < xs.length := by simpa [given] using hng
    have hz : xs[n]? = some xs[n] := List.getElem?_eq_getElem hn'
    obtain ⟨o1, o2⟩ := g4 n _ hz
    have hcomp : ((stepsIn ts hn s xs).mapIdx (fun i e => (⟨startOf (stepsIn ts hn s xs) i, (xs.map (offOf ts s)).getD i 0, e⟩ : Comp)))[n]? =
        some ⟨startOf (stepsIn ts hn s xs) n, offOf ts s xs[n], (stepsIn ts hn s xs)[n]'(by omega)⟩ := by
      rw [List.getElem?_mapIdx, List.getElem?_eq_getElem (by omega), Option.map_some, List.getD_eq_getElem?_getD, List.getElem?_map, hz, Option.map_some, Option.getD_some]
    simp only [Track.pick, Track.count, Track.composition, Track.decoding, Track.duration, Verif.Tables.compositionTime, Verif.Tables.decodingTime, hco, hsm, hif, hsc, hcomp, f2 n _ hz, o1, o2,
      Option.map_some, Option.bind_eq_bind, Option.bind_some, Option.pure_def]
    rw [if_neg (by omega)]
    simp only [given, List.getElem?_mapIdx, hz, Option.map_some, startOf, List.getD_eq_getElem?_getD, List.getElem?_eq_getElem (show n < (stepsIn ts hn s xs).length by omega), Option.getD_some]

/-- The track is opened and holds the samples. -/
theorem open_holds (ts hn : Nat → Nat → Nat) (s : MStream) (v : Bool) (xs : List SampleIn) (body : List UInt8) (k m : Nat) (es : List (Nat × Nat)) (c : Complete ts hn s v xs body)
    (hes : stscEntries s.flushed.w.chunks s.flushed.allowEmpty = some es) (hlen : xs.length + 5 < 2 ^ 32) (hb : body.length + k < 2 ^ 32) (hf : FirstLeast ts hn s xs) :
    ∃ T : Track, (trackRd ts hn s.flushed es k).open m = some T ∧ Holds T (given ts hn s v xs k) ∧ T.scale = s.scale ∧
      T.elst = (if s.streamOffset = 0 then 0 else ts s.mvhdScale s.streamOffset) ∧ T.mvhdScale = m ∧ T.visual = s.kind.visual? ∧ T.decMap ≠ [] := by
  have F := facts ts hn s v xs body k es c hes hlen hb
  have hfw : s.flushed.w = flush (writeAll { visual := v } xs) := by rw [MStream.flushed, c.written]
  have hdl := stepsIn_length ts hn s xs
  have hst := stts_steps ts hn s v xs body c hlen s.allowEmpty
  -- sample manager
  obtain ⟨cm, offs, g1, g2, g3, g4⟩ : ∃ cm offs, parseStsc (stscWords es) = some cm ∧ parseStco (s.flushed.w.chunks.length :: s.flushed.w.chunks.map fun c => c.position + k) = some offs ∧
      parseStsz (stszWords s.flushed.w) = some (0, xs.length, xs.map (·.size)) ∧ ∀ i z, xs[i]? = some z →
        (Verif.Tables.SampleManager.mk cm 0 xs.length (xs.map (·.size)) offs).offset i = some (z.position + k) ∧
        (Verif.Tables.SampleManager.mk cm 0 xs.length (xs.map (·.size)) offs).size i = some z.size := by
    have hdiff := c.differ
    match hxs : xs, hdiff with
    | [], hdiff => obtain ⟨x, _, hx, _⟩ := hdiff; cases hx
    | x :: rest, hdiff =>
      obtain ⟨y, hy, hyne⟩ := Verif.Movie.first_differs hdiff
      obtain ⟨es', cm, offs, h1, h2, h3, h4, h5⟩ := Verif.Tables.samples_found_partial x y rest v s.allowEmpty k hy hyne (by omega) F.small [] [] []
      rw [← hfw] at h1 h3 h4
      obtain rfl : es' = es := Option.some.inj (h1.symm.trans hes)
      rw [List.append_nil] at h2 h3 h4
      refine ⟨cm, offs, h2, ?_, h4, h5⟩
      rw [← h3, Verif.Tables.stcoWords]
      congr 2
      · exact (Nat.mod_eq_of_lt F.few).symm
      · exact List.map_congr_left fun c hc => (Nat.mod_eq_of_lt (F.chunks c hc)).symm
  -- times
  obtain ⟨E, hE⟩ : ∃ E, E = sttsEntries (ts s.scale) (hn s.scale) s.allowEmpty (xs.map (·.decoding)) := ⟨_, rfl⟩
  rw [← hE] at hst
  obtain ⟨d, d1, d2, d3⟩ := Verif.Tables.parse_stts_eq E []
  rw [List.append_nil] at d1
  have hdec : s.flushed.w.samples.map (·.decoding) = xs.map (·.decoding) := by rw [F.samples, List.map_map]; rfl
  obtain ⟨cc, c1, c2⟩ : ∃ cc : Option CttsRd, openCtts d.comps ((cttsEntries (ts s.scale) s.ctts s.flushed.w).map fun (cs : List (Nat × Nat)) => cs.length :: pairList cs) = some cc ∧
      (match cc with | some c => c.comps | none => d.comps) = (stepsIn ts hn s xs).mapIdx (fun i e => ⟨startOf (stepsIn ts hn s xs) i, (xs.map (offOf ts s)).getD i 0, e⟩) := by
    cases hce : cttsEntries (ts s.scale) s.ctts s.flushed.w with
    | none =>
      refine ⟨none, rfl, ?_⟩
      simp only [d2, hst, compsOf]
      rw [hfw] at hce
      obtain ⟨h0, h1⟩ := Verif.Movie.cttsOmitted _ _ _ _ hce
      congr 1
      funext i e
      congr 1
      rw [List.getD_eq_getElem?_getD, List.getElem?_map]
      cases hx : xs[i]? with
      | none => rfl
      | some z =>
        simp only [Option.map_some, Option.getD_some, offOf, h0, h1 z (List.mem_of_getElem? hx), sub64]
        have := c.zero
        simp [this]
    | some ce =>
      have hcw := Verif.Tables.ctts_written (ts s.scale) s.ctts s.flushed.w ce (by rw [F.samples, List.length_map]; omega) (by
        rw [F.samples]; intro z hz
        obtain ⟨w, hw, rfl⟩ := List.mem_map.1 hz
        exact c.offsets w hw) hce
      have hex : expand ce = xs.map (offOf ts s) := by rw [hcw, F.samples, List.map_map]; rfl
      have hl : (expand ce).length = (expand E).length := by rw [hex, hst, hdl, List.length_map]
      obtain ⟨q, q1, q2⟩ := ctts_comps E ce hl (by
        intro i hi
        rw [first_offset hl 0 (by omega), first_offset hl i hi]
        simp only [hex, hst, List.getElem_map, List.take_zero, List.sum_nil, Nat.zero_add]
        rw [hst, hdl] at hi
        exact hf i _ _ (List.getElem?_eq_getElem (by omega)) (List.getElem?_eq_getElem (by omega)))
      refine ⟨some q, ?_, ?_⟩
      · simp only [Option.map_some, openCtts, d2, Option.map_eq_some_iff, Option.some.injEq, exists_eq_right]
        exact q1
      · simp only [q2, hst, hex]
  obtain ⟨f, f1, f2⟩ : ∃ f, openStss (stssWords s.flushed.w) = some f ∧ ∀ i z, xs[i]? = some z → isIFrame f i = some (!v || z.sync) := by
    rw [hfw]
    cases v with
    | false =>
      rcases Verif.Movie.stss_seen false xs (by omega) c.key with ⟨h1, -⟩ | ⟨_, _, h, _⟩
      · rw [h1]
        exact ⟨[], rfl, fun i z _ => rfl⟩
      · cases h
    | true =>
      obtain ⟨words, f, h1, h2, h3⟩ := Verif.Tables.stss_roundtrip_partial xs (by omega) (c.key rfl) []
      rw [List.append_nil] at h2
      rw [h1]
      exact ⟨f, h2, fun i z hz => by rw [h3 i z hz]; rfl⟩
  have hbox : (trackRd ts hn s.flushed es k).boxes m = some
      { sm := ⟨cm, 0, xs.length, xs.map (·.size), offs⟩, stts := pairWords E, ctts := (cttsEntries (ts s.scale) s.ctts s.flushed.w).map fun (cs : List (Nat × Nat)) => cs.length :: pairList cs,
        stss := stssWords s.flushed.w, scale := s.scale, elst := (if s.streamOffset = 0 then none else some (ts s.mvhdScale s.streamOffset)).getD 0, mvhdScale := m,
        visual := some (handlerOfKind s.kind) = some .vide } := by
    simp only [TrackRd.boxes, trackRd, Option.getD_some]
    have e1 : es.length :: tripleList es = stscWords es := rfl
    have e2 : s.flushed.scale = s.scale := rfl
    have e3 : s.flushed.allowEmpty = s.allowEmpty := rfl
    rw [e1, g1, g2, g3, e2, e3, hdec, ← hE]
    rfl
  rw [TrackRd.open, hbox]
  simp only [Option.bind_eq_bind, Option.bind_some, openTrack, d1, c1, f1, Option.pure_def]
  refine ⟨_, rfl, ?_, rfl, ?_, rfl, ?_, ?_⟩
  · exact holds_given ts hn s v xs k cm offs _ f rfl c2 rfl rfl g4 f2
  · by_cases h0 : s.streamOffset = 0 <;> simp [h0]
  · cases s.kind <;> rfl
  · simp only [d3]
    intro h0
    have h1 := congrArg List.length h0
    rw [Verif.Tables.decRuns_length] at h1
    have h2 : E = [] := List.eq_nil_of_length_eq_zero h1
    rw [h2] at hst
    have := congrArg List.length hst
    rw [hdl] at this
    obtain ⟨x, _, hx, _⟩ := c.differ
    have h3 := List.length_pos_of_mem hx
    have h4 : (expand []).length = 0 := rfl
    omega

end Verif.Parse

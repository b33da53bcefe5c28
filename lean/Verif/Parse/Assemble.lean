import Verif.Parse.Open
namespace Verif.Parse
open Verif.Cenc (be_length)
open Verif.Cenc.Spec (be)
open Verif.Fragment (fourcc full box box_length)
open Verif.Movie (MStream Fits Complete Kind Given chunkTables traks moovList mvhdOf movieFtyp movieFile movieFile_eq cat cat_cons cat_one mvhdBody mem_cat trakList mdiaList minfList stblList stszBody minDuration)
open Verif.Tables (SampleIn stszWords stscEntries flush writeAll)
open Verif.Reader (Track Sample)
open Verif.Reader.Spec (Holds)

/-- The number of samples is bounded by the size of the table of sizes. -/
theorem few_samples (ts hn : Nat → Nat → Nat) (now : Nat) (s : MStream) (v : Bool) (xs : List SampleIn) (body : List UInt8) (c : Complete ts hn s v xs body) (es : List (Nat × Nat)) (k : Nat) :
    4 * xs.length + 40 ≤ (cat (trakList ts hn now s.flushed es k)).length := by
  have hsz : (stszBody s.flushed).length = 12 + 4 * xs.length := by
    obtain ⟨hw, hdiff, -⟩ := c
    match xs, hdiff with
    | [], hdiff => obtain ⟨x, _, hx, _⟩ := hdiff; cases hx
    | x :: rest, hdiff =>
      obtain ⟨y, hy, hyne⟩ := Verif.Movie.first_differs hdiff
      have hfw : s.flushed.w = flush (writeAll { visual := v } (x :: rest)) := by rw [MStream.flushed, hw]
      have hhs : s.flushed.w.hasSize = true := by
        rw [hfw, (Verif.Tables.flush_fields _).2.1]; exact Verif.Tables.hasSize_true x y _ v hy hyne
      rw [stszBody, List.length_append, words_length, Verif.Movie.full_length, stszWords, hhs, if_pos rfl, hfw, (Verif.Tables.flush_fields _).1, (Verif.Tables.writeAll_fields _ _).1]
      simp only [List.length_cons, List.length_map, List.nil_append]
      omega
  have l0 := mem_cat (stblList ts hn s.flushed es k) (fourcc 's' 't' 's' 'z', stszBody s.flushed) (by simp [stblList, Verif.Movie.stblPre])
  have l1 := mem_cat (trakList ts hn now s.flushed es k) (fourcc 'm' 'd' 'i' 'a', cat (mdiaList ts hn now s.flushed es k)) (by simp [trakList])
  have l2 := mem_cat (mdiaList ts hn now s.flushed es k) (fourcc 'm' 'i' 'n' 'f', cat (minfList ts hn s.flushed es k)) (by simp [mdiaList])
  have l3 := mem_cat (minfList ts hn s.flushed es k) (fourcc 's' 't' 'b' 'l', cat (stblList ts hn s.flushed es k)) (by simp [minfList])
  simp only at l0 l1 l2 l3
  omega

theorem fits_flushed {ts : Nat → Nat → Nat} {s : MStream} {config : List UInt8} (f : Fits ts s config) : Fits ts s.flushed config := by
  have hd := Verif.Movie.flushed_duration s
  have f1 := f.duration
  have f2 := f.mediaDuration
  exact ⟨f.kind, f.kid, f.id, f.scale, by rw [hd]; exact f1, by rw [hd]; exact f2, f.lang⟩

/-- What is asked of a stream. -/
def GivenOk (ok : Accept) (ts hn : Nat → Nat → Nat) (body : List UInt8) (g : Given) : Prop :=
  Complete ts hn g.s g.visual g.xs body ∧ Fits ts g.s g.config ∧ Accepted ok g.s.kind g.s.kid ∧ Accepted ok g.s.kind none ∧ FirstLeast ts hn g.s g.xs

/-- What the reader has of a stream: the record of the boxes `t` and the track `T`. -/
def Opened (ts hn : Nat → Nat → Nat) (k : Nat) (g : Given) (t : TrackRd × Nat) (T : Track) : Prop :=
  (∃ es, t = (trackRd ts hn g.s.flushed es k, 1000)) ∧ Holds T (given ts hn g.s g.visual g.xs k) ∧ T.scale = g.s.scale ∧
    T.elst = (if g.s.streamOffset = 0 then 0 else ts g.s.mvhdScale g.s.streamOffset) ∧ T.mvhdScale = 1000 ∧ T.visual = g.s.kind.visual? ∧ T.decMap ≠ []

theorem streams_open (ok : Accept) (ts hn : Nat → Nat → Nat) (now : Nat) (body : List UInt8) (k : Nat) (hb : body.length + k < 2 ^ 32) : ∀ (gs : List Given) (l : List (MStream × List (Nat × Nat))),
    (∀ g ∈ gs, GivenOk ok ts hn body g) → chunkTables (gs.map fun g => g.s.flushed) = some l → (cat (traks ts hn now k l)).length < 2 ^ 32 →
    (∀ x ∈ l, StreamOk ok ts hn k x) ∧
    ∃ Ts : List Track, (l.map fun x => (trackRd ts hn x.1 x.2 k, 1000)).mapM (fun t => t.1.open t.2) = some Ts ∧ Ts.length = gs.length ∧ l.length = gs.length ∧
      ∀ (i : Nat) (g : Given), gs[i]? = some g → ∃ t T, (l.map fun x => (trackRd ts hn x.1 x.2 k, 1000))[i]? = some t ∧ Ts[i]? = some T ∧ Opened ts hn k g t T
  | [], l, _, hl, _ => by
    simp only [List.map_nil, chunkTables, Option.some.injEq] at hl
    subst hl
    exact ⟨by simp, [], rfl, rfl, rfl, by simp⟩
  | g :: gs, l, h, hl, hc => by
    obtain ⟨g1, g2, g3, g4, g5⟩ := h g (by simp)
    obtain ⟨es, hes⟩ := Verif.Movie.stsc_some ts hn g.s g.visual g.xs body g1
    simp only [List.map_cons, chunkTables, hes, Option.map_eq_some_iff] at hl
    obtain ⟨l', hl', rfl⟩ := hl
    simp only [traks, List.map_cons, cat_cons, List.length_append, box_length] at hc
    obtain ⟨i1, Ts, i2, i3, i4, i5⟩ := streams_open ok ts hn now body k hb gs l' (fun g hg => h g (by simp [hg])) hl' (by simp only [traks]; omega)
    have hfew := few_samples ts hn now g.s g.visual g.xs body g1 es k
    have hlen : g.xs.length + 5 < 2 ^ 32 := by omega
    have hto := tables_ok ts hn g.s g.visual g.xs body k es g1 hes hlen hb
    obtain ⟨T, t1, t2, t3, t4, t5, t6, t7⟩ := open_holds ts hn g.s g.visual g.xs body k 1000 es g1 hes hlen hb g5
    refine ⟨?_, T :: Ts, ?_, ?_, ?_, ?_⟩
    · intro x hx
      rcases List.mem_cons.1 hx with rfl | hx
      · exact ⟨⟨g.config, fits_flushed g2⟩, hto, g3, g4⟩
      · exact i1 x hx
    · rw [List.map_cons, List.mapM_cons]
      simp only
      rw [t1, i2]
      rfl
    · simp [i3]
    · simp [i4]
    · intro i g' hg
      match i with
      | 0 =>
        simp only [List.getElem?_cons_zero, Option.some.injEq] at hg
        subst hg
        exact ⟨_, T, rfl, rfl, ⟨es, rfl⟩, t2, t3, t4, t5, t6, t7⟩
      | i + 1 =>
        simp only [List.getElem?_cons_succ] at hg
        simpa only [List.map_cons, List.getElem?_cons_succ] using i5 i g' hg

/-- The file is opened. -/
theorem movie_opened (ok : Accept) (ts hn : Nat → Nat → Nat) (now : Nat) (body : List UInt8) (gs : List Given) (h : ∀ g ∈ gs, GivenOk ok ts hn body g)
    (hdur : ts 1000 (minDuration (gs.map (·.s))) < 2 ^ 32) :
    ∃ file hdr, movieFile ts hn now (gs.map (·.s)) body = some file ∧ file = hdr ++ body ∧
      (file.length < 2 ^ 32 → ∀ fuel, file.length ≤ fuel → ∃ (f : FileRd) (Ts : List Track),
        openFile ok fuel file = .ok (f, { streams := Ts.map fun T => (T, 0), mdatEnd := file.length }) ∧ f.brands = brandBytes ∧ f.scale = 1000 ∧ f.duration = ts 1000 (minDuration (gs.map (·.s))) ∧
        f.tracks.length = gs.length ∧ Ts.length = gs.length ∧
        ∀ (i : Nat) (g : Given), gs[i]? = some g → ∃ t T, f.tracks[i]? = some t ∧ Ts[i]? = some T ∧ Opened ts hn hdr.length g t T) := by
  obtain ⟨l, hl⟩ := Verif.Movie.chunkTables_some ts hn body gs fun g hg => (h g hg).1
  rw [movieFile_eq, Verif.Movie.flushed_map, hl, Option.map_some]
  obtain ⟨ss, hss⟩ : ∃ ss, ss = gs.map (·.s) := ⟨_, rfl⟩
  rw [← hss] at hdur ⊢
  obtain ⟨k, hk⟩ : ∃ k, k = (box (fourcc 'f' 't' 'y' 'p') movieFtyp).length + (box (fourcc 'm' 'o' 'o' 'v') (cat (moovList ts hn { now } ss l 0))).length + 8 := ⟨_, rfl⟩
  beta_reduce
  rw [← hk]
  obtain ⟨M, hM⟩ : ∃ M, M = cat (moovList ts hn { now } ss l k) := ⟨_, rfl⟩
  rw [← hM]
  obtain ⟨hdr, hhdr⟩ : ∃ hdr, hdr = box (fourcc 'f' 't' 'y' 'p') movieFtyp ++ (box (fourcc 'm' 'o' 'o' 'v') M ++ (be 4 (8 + body.length) ++ be 4 (fourcc 'm' 'd' 'a' 't'))) := ⟨_, rfl⟩
  have hfile : cat [(fourcc 'f' 't' 'y' 'p', movieFtyp), (fourcc 'm' 'o' 'o' 'v', M), (fourcc 'm' 'd' 'a' 't', body)] = hdr ++ body := by
    rw [hhdr, cat_cons, cat_cons, cat_one]
    simp only [box, List.append_assoc]
  have hfile2 : cat [(fourcc 'f' 't' 'y' 'p', movieFtyp), (fourcc 'm' 'o' 'o' 'v', M), (fourcc 'm' 'd' 'a' 't', body)] =
      box (fourcc 'f' 't' 'y' 'p') movieFtyp ++ (box (fourcc 'm' 'o' 'o' 'v') M ++ box (fourcc 'm' 'd' 'a' 't') body) := by
    rw [cat_cons, cat_cons, cat_one]
  have hkl : hdr.length = k := by
    rw [hk, hhdr]
    simp only [List.length_append, box_length, be_length]
    rw [hM, Verif.Movie.moov_length]; omega
  obtain ⟨file, hf⟩ : ∃ file, file = cat [(fourcc 'f' 't' 'y' 'p', movieFtyp), (fourcc 'm' 'o' 'o' 'v', M), (fourcc 'm' 'd' 'a' 't', body)] := ⟨_, rfl⟩
  rw [← hf] at hfile hfile2 ⊢
  refine ⟨file, hdr, rfl, hfile, fun hlen fuel hfu => ?_⟩
  have hmin : minDuration (Verif.Movie.flushed ss) = minDuration ss := by
    simp only [minDuration, Verif.Movie.flushed, List.foldl_map]
    congr 1
    funext m s
    have := Verif.Movie.flushed_duration s
    simp only [MStream.flushed] at this
    rw [this]
  have hM2 : M = box (fourcc 'm' 'v' 'h' 'd') (mvhdBody 0 now 1000 (ts 1000 (minDuration ss)) (0 + (Verif.Movie.flushed ss).length + 1)) ++ cat (traks ts hn now k l) := by
    rw [hM, moovList, cat_cons, mvhdOf, hmin]
  have hNl := congrArg List.length hfile2
  have hMl := congrArg List.length hM2
  have hFl := congrArg List.length hfile
  simp only [List.length_append, box_length] at hNl hMl hFl
  obtain ⟨s1, Ts, s2, s3, s4, s5⟩ := streams_open ok ts hn now body k (by omega) gs l h hl (by omega)
  have hp := parseFile_movie ok fuel ts hn now k (ts 1000 (minDuration ss)) (0 + (Verif.Movie.flushed ss).length + 1) l body M file hM2 hfile2 s1 hlen hfu hdur
  refine ⟨{ brands := brandBytes, scale := 1000, duration := ts 1000 (minDuration ss), mdatEnd := file.length, tracks := l.map fun x => (trackRd ts hn x.1 x.2 k, 1000) }, Ts, ?_, rfl, rfl, rfl,
    by rw [List.length_map, s4], s3, by rw [hkl]; exact s5⟩
  rw [openFile, hp, ok_bind]
  simp only
  rw [s2]

end Verif.Parse

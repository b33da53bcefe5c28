import Verif.Movie.Samples
namespace Verif.Movie
open Verif.Cenc.Spec (be beVal)
open Verif.Cenc (be_length)
open Verif.Fragment (W fourcc full box box_length)
open Verif.Fragment.Spec (chars)
open Verif.Tables (WStream SampleIn ChunkDes stscEntries stszWords stcoWords stssWords sttsEntries cttsEntries u32 sub64 writeAll flush deltas)

/-- The stream as `write_moov` sees it. -/
def MStream.flushed (s : MStream) : MStream := { s with w := flush s.w }

theorem stbl_find (ts hn : Nat → Nat → Nat) (s : MStream) (es : List (Nat × Nat)) (k : Nat) (h : (cat (stblList ts hn s es k)).length < 2 ^ 32) :
    Spec.child (cat (stblList ts hn s es k)) "stsd" = some (stsdBody s) ∧
    Spec.child (cat (stblList ts hn s es k)) "stts" = some (sttsBody ts hn s) ∧
    Spec.child (cat (stblList ts hn s es k)) "ctts" = (cttsEntries (ts s.scale) s.ctts s.w).map (fun es => tableBody es.length (pairList es)) ∧
    Spec.child (cat (stblList ts hn s es k)) "stsc" = some (tableBody es.length (tripleList es)) ∧
    Spec.child (cat (stblList ts hn s es k)) "stsz" = some (stszBody s) ∧
    Spec.child (cat (stblList ts hn s es k)) "stco" = some (stcoBody s k) ∧
    Spec.child (cat (stblList ts hn s es k)) "stss" = (stssWords s.w).map (fun ws => full 0 0 ++ words ws) := by
  simp only [child_cat _ _ h]
  unfold stblList stblPre cttsList stssList
  cases cttsEntries (ts s.scale) s.ctts s.w <;> cases stssWords s.w <;>
    refine ⟨?_, ?_, ?_, ?_, ?_, ?_, ?_⟩ <;>
    simp (decide := true) only [List.nil_append, List.cons_append, List.append_nil, List.append_assoc, List.find?_cons_of_pos, List.find?_cons_of_neg, List.find?_nil, Option.map_some,
      Option.map_none]

theorem chunks_seen (v : Bool) (x : SampleIn) (xs : List SampleIn) (allowEmpty : Bool) (es : List (Nat × Nat)) (hlen : (x :: xs).length < 2 ^ 32)
    (hes : stscEntries (flush (writeAll { visual := v } (x :: xs))).chunks allowEmpty = some es) (k : Nat) :
    ∃ groups : List (Nat × List SampleIn), (flush (writeAll { visual := v } (x :: xs))).chunks = groups.map (fun g => ⟨g.1, g.2.length⟩) ∧
      (∀ g ∈ groups, ∃ z ∈ x :: xs, z.position = g.1) ∧ groups.length ≤ (x :: xs).length ∧ (∀ e ∈ es, e.1 ≤ groups.length) ∧
      Spec.locate (es.map fun e => (e.1, e.2, 1)) 1 (groups.map fun g => g.1 + k) ((x :: xs).map (·.size)) = some ((x :: xs).map fun z => (z.position + k, z.size, 1)) := by
  obtain ⟨groups, hch, hgood, hflat⟩ := Verif.Tables.chunks_partition x xs v
  rw [hch] at hes
  have hglen : ∀ g ∈ groups, 0 < g.2.length ∧ g.2.length ≤ (x :: xs).length := by
    intro g hg
    refine ⟨List.length_pos_iff.2 (hgood g hg).1, ?_⟩
    rw [← hflat]
    have : g.2.Sublist (groups.flatMap (·.2)) := List.sublist_flatten_of_mem (List.mem_map.2 ⟨g, hg, rfl⟩)
    exact this.length_le
  have hgne : groups ≠ [] := by intro h; rw [h] at hflat; simp at hflat
  obtain ⟨es', he1, _, he3, he4⟩ := Verif.Tables.stsc_written (groups.map fun g => (⟨g.1, g.2.length⟩ : ChunkDes)) allowEmpty (by simpa using hgne)
    (by intro c hc; obtain ⟨g, hg, rfl⟩ := List.mem_map.1 hc; have := (hglen g hg).2; show g.2.length < _; omega)
    (by intro c hc; obtain ⟨g, hg, rfl⟩ := List.mem_map.1 hc; exact (hglen g hg).1)
  obtain rfl : es' = es := Option.some.inj (he1.symm.trans hes)
  refine ⟨groups, hch, ?_, ?_, ?_, ?_⟩
  · intro g hg
    obtain ⟨h1, h2⟩ := hgood g hg
    match hg2 : g.2, h1 with
    | z :: r, _ =>
      rw [hg2] at h2
      exact ⟨z, by rw [← hflat]; exact List.mem_flatMap.2 ⟨g, hg, by rw [hg2]; simp⟩, h2.1⟩
  · rw [← hflat, List.length_flatMap]
    have : ∀ (gs : List (Nat × List SampleIn)), (∀ g ∈ gs, 0 < g.2.length) → gs.length ≤ (gs.map (·.2.length)).sum := by
      intro gs
      induction gs with
      | nil => simp
      | cons a gs ih =>
        intro h
        have := ih (fun g hg => h g (by simp [hg]))
        have := h a (by simp)
        simp; omega
    exact this groups (fun g hg => (hglen g hg).1)
  · intro e he; simpa using he3 e he
  · have := locate_eq k (es'.map fun e => (e.1, e.2, 1)) groups 1 (fun g hg => (hgood g hg).2) (by
      intro i g hg
      rw [Nat.add_comm 1 i]
      exact inChunk_eq es' (i + 1) g.2.length (he4 i ⟨g.1, g.2.length⟩ (by rw [List.getElem?_map, hg]; rfl)) (hglen g (List.mem_of_getElem? hg)).1)
    rwa [hflat] at this

theorem cttsOmitted (ts : Nat → Nat) (off : Nat) (v : Bool) (xs : List SampleIn) (h : cttsEntries ts off (flush (writeAll { visual := v } xs)) = none) :
    off = 0 ∧ ∀ x ∈ xs, x.composition = x.decoding := by
  have : off = 0 := by
    simp only [cttsEntries] at h
    split at h
    · rename_i hh; exact hh.2
    · simp at h
  subst this
  exact ⟨rfl, Verif.Tables.ctts_omitted ts xs v h⟩

theorem samples_read (ts hn : Nat → Nat → Nat) (s : MStream) (v : Bool) (xs : List SampleIn) (body hdr : List UInt8) (c : Complete ts hn s v xs body) (es : List (Nat × Nat))
    (hes : stscEntries s.flushed.w.chunks s.flushed.allowEmpty = some es) (hfile : (hdr ++ body).length < 2 ^ 32)
    (hcat : (cat (stblList ts hn s.flushed es hdr.length)).length < 2 ^ 32) :
    Spec.samples (hdr ++ body) (cat (stblList ts hn s.flushed es hdr.length)) =
      some (seen body (fun z => ts s.scale ((sub64 z.composition z.decoding + s.ctts) % 2 ^ 64)) v xs
        (shifted (deltas (ts s.scale) (hn s.scale) 0 (xs.map (·.decoding))))) := by
  obtain ⟨hw, hdiff, hkey, hin, hzero, hsteps, hoff⟩ := c
  match hxs : xs, hdiff with
  | [], hdiff => obtain ⟨x, _, hx, _⟩ := hdiff; cases hx
  | [a], hdiff =>
    obtain ⟨x, y, hx, hy, hne⟩ := hdiff
    rw [List.mem_singleton.1 hx, List.mem_singleton.1 hy] at hne
    exact absurd rfl hne
  | x :: x1 :: rest, hdiff =>
    obtain ⟨y, hy, hyne⟩ := first_differs hdiff
    obtain ⟨f1, f2, f3, f4, f5, f6, f7⟩ := stbl_find ts hn s.flushed es hdr.length hcat
    have hfw : s.flushed.w = flush (writeAll { visual := v } (x :: x1 :: rest)) := by rw [MStream.flushed, hw]
    have hsc : s.flushed.scale = s.scale := rfl
    have hct : s.flushed.ctts = s.ctts := rfl
    have hae : s.flushed.allowEmpty = s.allowEmpty := rfl
    -- number of samples
    have hsamples : s.flushed.w.samples = (x :: x1 :: rest).map Verif.Tables.des := by
      rw [hfw, (Verif.Tables.flush_fields _).1, (Verif.Tables.writeAll_fields _ _).1]; rfl
    have hhs : s.flushed.w.hasSize = true := by
      rw [hfw, (Verif.Tables.flush_fields _).2.1]; exact Verif.Tables.hasSize_true x y _ v hy hyne
    have bound : ∀ z ∈ x :: x1 :: rest, z.size < 2 ^ 32 ∧ z.position + hdr.length < 2 ^ 32 := by
      intro z hz
      have := hin z hz
      rw [List.length_append] at hfile
      omega
    have hstsz : stszBody s.flushed = full 0 0 ++ words (0 :: u32 (x :: x1 :: rest).length :: (x :: x1 :: rest).map (·.size)) := by
      rw [stszBody, stszWords, hhs, if_pos rfl, hsamples, List.length_map, List.map_map]
      congr 3
      congr 1
      exact List.map_congr_left fun z hz => Nat.mod_eq_of_lt (bound z hz).1
    have mem_len : ∀ t b, (t, b) ∈ stblList ts hn s.flushed es hdr.length → 8 + b.length < 2 ^ 32 := fun t b h => Nat.lt_of_le_of_lt (mem_cat _ _ h) hcat
    have hlen : (x :: x1 :: rest).length + 5 < 2 ^ 32 := by
      have := mem_len (fourcc 's' 't' 's' 'z') (stszBody s.flushed) (by simp [stblList, stblPre])
      rw [hstsz, List.length_append, words_length] at this
      simp only [List.length_cons, List.length_map] at this ⊢
      omega
    generalize hX : x :: x1 :: rest = X at *
    have hszs : Spec.sizes (stszBody s.flushed) = some (X.map (·.size)) := by
      rw [hstsz, u32, Nat.mod_eq_of_lt (by omega)]
      have := sizes_read (X.map (·.size)) (by rw [List.length_map]; omega) (by intro z hz; obtain ⟨w, hw, rfl⟩ := List.mem_map.1 hz; exact (bound w hw).1)
      rwa [List.length_map] at this
    obtain ⟨groups, hch, hgpos, hgl, hesl, hloc⟩ := chunks_seen v x (x1 :: rest) s.allowEmpty es (by rw [hX]; omega) (by rw [hX, ← hfw]; exact hes) hdr.length
    rw [hX] at hch hgpos hgl hloc
    rw [← hfw] at hch
    have hessize : es.length < 2 ^ 32 := by
      have := mem_len (fourcc 's' 't' 's' 'c') (tableBody es.length (tripleList es)) (by simp [stblList, stblPre])
      rw [tableBody_words, List.length_append, words_length] at this
      simp only [List.length_cons, tripleList_length] at this
      omega
    have hstsc : Spec.toChunk (tableBody es.length (tripleList es)) = some (es.map fun e => (e.1, e.2, 1)) :=
      toChunk_read es hessize fun e he => ⟨by have := hesl e he; omega, stsc_bound _ _ es hes e he⟩
    have hstco : Spec.list (stcoBody s.flushed hdr.length) = some (groups.map fun g => g.1 + hdr.length) := by
      have e : stcoBody s.flushed hdr.length = full 0 0 ++ words ((groups.map fun g => g.1 + hdr.length).length :: groups.map fun g => g.1 + hdr.length) := by
        simp only [stcoBody, payload, hch, words, List.length_map, List.flatMap_cons, List.flatMap_map, List.append_assoc]
      rw [e]
      refine list_read _ (by rw [List.length_map]; omega) ?_
      intro n hn
      obtain ⟨g, hg, rfl⟩ := List.mem_map.1 hn
      obtain ⟨z, hz, hzp⟩ := hgpos g hg
      rw [← hzp]; exact (bound z hz).2
    -- bytes
    have hdata : (X.map fun z => (z.position + hdr.length, z.size, 1)).mapM (fun x : Nat × Nat × Nat => Spec.slice (hdr ++ body) x.1 x.2.1) =
        some (X.map fun z => (body.drop z.position).take z.size) := by
      have : ∀ l : List SampleIn, (∀ z ∈ l, z.position + z.size ≤ body.length) →
          (l.map fun z => (z.position + hdr.length, z.size, 1)).mapM (fun x : Nat × Nat × Nat => Spec.slice (hdr ++ body) x.1 x.2.1) = some (l.map fun z => (body.drop z.position).take z.size) := by
        intro l
        induction l with
        | nil => intro _; rfl
        | cons z l ih =>
          intro h
          rw [List.map_cons, List.mapM_cons, slice_body hdr body _ _ (h z (by simp)), ih (fun z hz => h z (by simp [hz]))]
          rfl
      exact this X hin
    -- durations
    have hdec : s.flushed.w.samples.map (·.decoding) = X.map (·.decoding) := by rw [hsamples, List.map_map]; rfl
    obtain ⟨steps, last, hd1, hd2⟩ := Verif.Tables.stts_written_partial (ts s.scale) (hn s.scale) s.allowEmpty x.decoding x1.decoding (rest.map (·.decoding))
      (by rw [← hX] at hlen; simp only [List.length_cons, List.length_map] at hlen ⊢; omega) (by
        intro d hd; refine hsteps d ?_; rw [← hX]; exact hd)
    have hXd : x.decoding :: x1.decoding :: rest.map (·.decoding) = X.map (·.decoding) := by rw [← hX]; rfl
    rw [hXd] at hd1 hd2
    have hstts : Spec.runs (sttsBody ts hn s.flushed) = some (steps ++ [last, last]) := by
      have hb := stts_bound (ts s.scale) (hn s.scale) s.allowEmpty (X.map (·.decoding))
      rw [← hd2]
      unfold sttsBody
      simp only [hsc, hae, hdec]
      refine runs_read _ ?_ hb
      have := mem_len (fourcc 's' 't' 't' 's') (sttsBody ts hn s.flushed) (by simp [stblList, stblPre])
      unfold sttsBody at this
      simp only [hsc, hae, hdec] at this
      rw [tableBody_words, List.length_append, words_length] at this
      simp only [List.length_cons, pairList_length] at this
      omega
    have hsh : shifted (deltas (ts s.scale) (hn s.scale) 0 (X.map (·.decoding))) = steps ++ [last, last] := by
      rw [hd1]; simp [shifted]
    have hdl : (steps ++ [last, last]).length = X.length := by
      have hl : ∀ (l : List Nat) (p : Nat), (deltas (ts s.scale) (hn s.scale) p l).length = l.length := by
        intro l
        induction l with
        | nil => intro p; rfl
        | cons d l ih => intro p; simp [deltas, ih]
      have := congrArg List.length hd1
      rw [hl] at this
      simp at this ⊢
      omega
    -- composition offsets
    obtain ⟨off, hoffs⟩ : ∃ off : SampleIn → Nat, off = fun z => ts s.scale ((sub64 z.composition z.decoding + s.ctts) % 2 ^ 64) := ⟨_, rfl⟩
    rw [← hoffs, hsh]
    have hctts : Spec.offsetsOf X.length (Spec.child (cat (stblList ts hn s.flushed es hdr.length)) "ctts") = some (X.map off) := by
      rw [f3, hsc, hct]
      cases hce : cttsEntries (ts s.scale) s.ctts s.flushed.w with
      | none =>
        rw [hfw] at hce
        obtain ⟨h0, h1⟩ := cttsOmitted _ _ _ _ hce
        simp only [Option.map_none, Spec.offsetsOf, Option.some.injEq]
        refine (List.eq_replicate_iff.2 ⟨by simp, ?_⟩).symm
        intro b hb
        obtain ⟨z, hz, rfl⟩ := List.mem_map.1 hb
        simp only [hoffs, h0, h1 z hz]
        simp [sub64, hzero]
      | some ce =>
        simp only [Option.map_some, Spec.offsetsOf]
        have hb := ctts_bound _ _ _ ce hce
        have hl : ce.length < 2 ^ 32 := by
          have := mem_len (fourcc 'c' 't' 't' 's') (tableBody ce.length (pairList ce)) (by
            simp only [stblList, stblPre, cttsList, hsc, hct, hce]; simp)
          rw [tableBody_words, List.length_append, words_length] at this
          simp only [List.length_cons, pairList_length] at this
          omega
        rw [runs_read ce hl hb]
        have hcw := Verif.Tables.ctts_written (ts s.scale) s.ctts s.flushed.w ce (by rw [hsamples, List.length_map]; omega) (by
          rw [hsamples]; intro z hz
          obtain ⟨w, hw, rfl⟩ := List.mem_map.1 hz
          exact hoff w hw) hce
        rw [hcw, hsamples, List.map_map, hoffs]
        rfl
    -- sync samples
    obtain ⟨ns, hns, hsync⟩ : ∃ ns : List Nat, Spec.syncsOf X.length (Spec.child (cat (stblList ts hn s.flushed es hdr.length)) "stss") = some ns ∧ ∀ (i : Nat) (z : SampleIn), X[i]? = some z → ns.contains (i + 1) = (!v || z.sync) := by
      rw [f7, hfw]
      rcases stss_seen v X (by omega) hkey with ⟨h1, h2⟩ | ⟨ns, h1, h2, h3, h4, h5⟩
      · rw [h1]
        refine ⟨_, rfl, ?_⟩
        intro i z hz
        have := (List.getElem?_eq_some_iff.1 hz).1
        rw [h2]
        simp
        exact this
      · rw [h1]
        refine ⟨ns, list_read ns h3 h4, ?_⟩
        intro i z hz
        rw [h5 i z hz, h2]; rfl
    simp only [Spec.samples, f2, f4, f5, f6, hszs, hstsc, hstco, hloc, hdata, hstts, hctts, hns, Option.bind_eq_bind, Option.bind_some, List.length_map, hdl]
    simp only [and_self, if_true, Option.some.injEq]
    apply List.ext_getElem?
    intro i
    rw [List.getElem?_map, seen, List.getElem?_zipWith]
    by_cases hi : i < X.length
    · have hXi : X[i]? = some (X[i]'hi) := List.getElem?_eq_getElem hi
      have hDi : (steps ++ [last, last])[i]? = some ((steps ++ [last, last])[i]'(by omega)) := List.getElem?_eq_getElem (by omega)
      rw [List.getElem?_range hi, hXi, hDi]
      simp only [Option.map_some, Option.some.injEq, List.getD_eq_getElem?_getD, List.getElem?_map, hXi, hDi, Option.getD_some, hsync i _ hXi]
    · rw [List.getElem?_eq_none (by simp; omega), List.getElem?_eq_none (by omega : X.length ≤ i)]
      rfl

end Verif.Movie

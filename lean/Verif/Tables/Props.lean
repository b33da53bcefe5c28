import Verif.Tables.StscLemmas
/-!
Properties C09 (stsc), C10 (sample positions), C13 (stsz), C54 (reading any valid stsc).
-/
namespace Verif.Tables
open Spec

/-- C54. For every valid sample-to-chunk table the reader finds, for every sample number, the chunk that holds it
and its index in the chunk. -/
theorem stsc_read (es : List (Nat × Nat)) (hv : ValidStsc es)
    (hb : ∀ e ∈ es, e.1 < 2 ^ 32 ∧ samplesBefore (samplesInChunk es) (e.1 + 1) < 2 ^ 32)
    (sample : Nat) (hs : sample < 2 ^ 64) (rest : List Nat) :
    ∃ m c r, parseStsc (stscWords es ++ rest) = some m ∧ getChunkNumber m sample = some (c, r) ∧ 1 ≤ c ∧
      samplesBefore (samplesInChunk es) c + r = sample ∧ r < samplesInChunk es c := by
  have hag := sic_agree es hv.2.1
  obtain ⟨⟨n1, r1, he1⟩, hsort, hpos⟩ := hv
  generalize hg : samplesInChunk es = g at *
  refine ⟨runs (samplesBefore g) es, ?_⟩
  have hparse := parse_runs g es ⟨⟨n1, r1, he1⟩, hsort, hpos⟩ hag hb rest
  have hne : runs (samplesBefore g) es ≠ [] := by
    intro h; have := congrArg List.length h; rw [runs_length, he1] at this; simp at this
  obtain ⟨code, i, ⟨k, ch⟩, hget, hi, hcase⟩ := Verif.RangeMap.range_map_total _ sample hne
  obtain ⟨e, hei, hch, hk⟩ := runs_get _ _ _ _ _ hi
  have hmem : e ∈ es := List.mem_of_getElem? hei
  -- first chunks are at least 1
  have hge1 : ∀ x ∈ es, 1 ≤ x.1 := by
    intro x hx
    rw [he1] at hx hsort
    rcases List.mem_cons.1 hx with h | h
    · subst h; exact Nat.le_refl _
    · have : 1 < x.1 := List.rel_of_pairwise_cons hsort h
      omega
  have he := hge1 e hmem
  have hspos := hpos e hmem
  have hbe := hb e hmem
  have hg1 : g e.1 = e.2 := by
    apply agree_get g es i e hag hei e.1 (Nat.le_refl _)
    intro e' he'
    have h1 : i + 1 < es.length := (List.getElem?_eq_some_iff.1 he').1
    have h2 : i < es.length := by omega
    have := List.pairwise_iff_getElem.1 hsort i (i + 1) h2 h1 (by omega)
    rw [List.getElem?_eq_getElem h2] at hei; rw [List.getElem?_eq_getElem h1] at he'
    simp only [Option.some.injEq] at hei he'
    rw [hei, he'] at this; exact this
  have hmono : samplesBefore g e.1 ≤ samplesBefore g (e.1 + 1) := sb_mono g e.1 1 he
  -- the sample is not before the run
  have hlow : samplesBefore g e.1 ≤ sample := by
    rcases Nat.eq_zero_or_pos i with h0 | h0
    · subst h0
      rw [he1] at hei; simp at hei; subst hei
      simp [samplesBefore]
    · have hprev : ∃ p, (runs (samplesBefore g) es)[i - 1]? = some p := by
        have : i - 1 < (runs (samplesBefore g) es).length := by
          have := (List.getElem?_eq_some_iff.1 hi).1; omega
        exact ⟨_, List.getElem?_eq_getElem this⟩
      obtain ⟨⟨pk, pch⟩, hp⟩ := hprev
      obtain ⟨pe, _, _, hpk⟩ := runs_get _ _ _ _ _ hp
      rw [show i - 1 + 1 = i by omega, hei] at hpk
      simp only at hpk
      rcases hcase with ⟨_, h, _⟩ | ⟨_, h, hlt⟩ | ⟨_, _, _, hlt⟩
      · omega
      · -- beyond the last key
        have hnone : es[i + 1]? = none := by
          rw [List.getElem?_eq_none_iff]; rw [runs_length] at h; omega
        rw [hnone] at hk
        simp only at hlt hk; omega
      · have := hlt _ h0 hp
        simp only at this; omega
  have hsub : sub64 sample ch.firstSample = sample - samplesBefore g e.1 := by
    rw [hch]
    simp only [sub64]
    rw [show sample + 2 ^ 64 - samplesBefore g e.1 = (sample - samplesBefore g e.1) + 2 ^ 64 by omega,
      Nat.add_mod_right, Nat.mod_eq_of_lt (by omega)]
  refine ⟨e.1 + (sample - samplesBefore g e.1) / e.2, (sample - samplesBefore g e.1) % e.2, hparse, ?_,
    Nat.le_trans he (Nat.le_add_right _ _), ?_⟩
  · simp only [getChunkNumber, hget, hsub]
    rw [hch, Nat.add_comm]
  · have hdm := Nat.div_add_mod (sample - samplesBefore g e.1) e.2
    generalize hq : (sample - samplesBefore g e.1) / e.2 = q at *
    have hqe : q * e.2 ≤ sample - samplesBefore g e.1 := by rw [Nat.mul_comm]; omega
    have hml : (sample - samplesBefore g e.1) % e.2 < e.2 := Nat.mod_lt _ hspos
    -- the next run, if any, starts after chunk e.1 + q or exactly there
    have hnext : ∀ e', es[i + 1]? = some e' → e.1 + q ≤ e'.1 ∧ (e.1 + q = e'.1 →
        (sample - samplesBefore g e.1) % e.2 = 0) := by
      intro e' he'
      have hlt : e.1 < e'.1 := by
        have h1 : i + 1 < es.length := (List.getElem?_eq_some_iff.1 he').1
        have h2 : i < es.length := by omega
        have := List.pairwise_iff_getElem.1 hsort i (i + 1) h2 h1 (by omega)
        rw [List.getElem?_eq_getElem h2] at hei; rw [List.getElem?_eq_getElem h1] at he'
        simp only [Option.some.injEq] at hei he'
        rw [hei, he'] at this; exact this
      have hS := sb_const g e.1 e.2 he (e'.1 - e.1) (fun c h1 h2 => agree_get g es i e hag hei c h1 (by
        intro e2 h; rw [he'] at h; simp at h; subst h; omega))
      rw [show e.1 + (e'.1 - e.1) = e'.1 by omega] at hS
      rw [he'] at hk
      simp only at hk
      have hle : sample ≤ k := by
        rcases hcase with ⟨_, _, h⟩ | ⟨_, h, _⟩ | ⟨_, h, _⟩
        · simp only at h; omega
        · exfalso
          rw [runs_length] at h
          have := (List.getElem?_eq_some_iff.1 he').1
          omega
        · exact h
      have hq2 : q * e.2 ≤ (e'.1 - e.1) * e.2 := by omega
      have hq3 : q ≤ e'.1 - e.1 := Nat.le_of_mul_le_mul_right hq2 hspos
      refine ⟨by omega, ?_⟩
      intro heq
      have : q = e'.1 - e.1 := by omega
      rw [← this] at hS
      rw [Nat.mul_comm] at hdm
      omega
    have hS := sb_const g e.1 e.2 he q (fun c h1 h2 => agree_get g es i e hag hei c h1 (by
        intro e' h; have := (hnext e' h).1; omega))
    refine ⟨?_, ?_⟩
    · rw [hS]
      rw [Nat.mul_comm] at hdm
      omega
    · cases hes : es[i + 1]? with
      | none =>
        rw [agree_get g es i e hag hei (e.1 + q) (by omega) (by intro e' h; rw [hes] at h; simp at h)]
        exact hml
      | some e' =>
        rcases Nat.lt_or_ge (e.1 + q) e'.1 with h | h
        · rw [agree_get g es i e hag hei (e.1 + q) (by omega) (by
            intro e2 h2; rw [hes] at h2; simp at h2; subst h2; exact h)]
          exact hml
        · have h2 := hnext e' hes
          have heq : e.1 + q = e'.1 := by omega
          rw [h2.2 heq, heq]
          have hmem' : e' ∈ es := List.mem_of_getElem? hes
          have : g e'.1 = e'.2 := by
            apply agree_get g es (i + 1) e' hag hes e'.1 (Nat.le_refl _)
            intro e2 he2
            have h1 : i + 1 + 1 < es.length := (List.getElem?_eq_some_iff.1 he2).1
            have h2 : i + 1 < es.length := by omega
            have := List.pairwise_iff_getElem.1 hsort (i + 1) (i + 1 + 1) h2 h1 (by omega)
            rw [List.getElem?_eq_getElem h2] at hes; rw [List.getElem?_eq_getElem h1] at he2
            simp only [Option.some.injEq] at hes he2
            rw [hes, he2] at this; exact this
          rw [this]; exact hpos e' hmem'

/-- 2 chunks of 3 samples, then chunks of 5 -/
example : ValidStsc [(1, 3), (3, 5)] ∧ samplesBefore (samplesInChunk [(1, 3), (3, 5)]) 4 = 11 :=
  ⟨⟨⟨3, _, rfl⟩, by simp, by simp⟩, by decide⟩

/-- C09. For every non-empty list of non-empty chunks the table written is valid and assigns to every chunk the
number of samples it was registered with. -/
theorem stsc_written (chunks : List ChunkDes) (allowEmpty : Bool) (hne : chunks ≠ [])
    (h32 : ∀ c ∈ chunks, c.samples < 2 ^ 32) (hpos : ∀ c ∈ chunks, 0 < c.samples) :
    ∃ es, stscEntries chunks allowEmpty = some es ∧ ValidStsc es ∧ (∀ e ∈ es, e.1 ≤ chunks.length) ∧
      ∀ i c, chunks[i]? = some c → samplesInChunk es (i + 1) = c.samples := by
  obtain ⟨init, l, rfl⟩ : ∃ init l, chunks = init ++ [l] :=
    ⟨chunks.dropLast, chunks.getLast hne, (List.dropLast_concat_getLast hne).symm⟩
  let f : Nat → Nat := fun i => match (init ++ [l])[i - 1]? with | some c => c.samples | none => 0
  have hfold := stsc_fold f (init.map (·.samples)) {} (by
      intro j hj
      simp only [List.length_map] at hj
      simp only [List.getElem?_map, f]
      rw [show (0 : Nat) + 1 + j - 1 = j by omega, List.getElem?_append_left hj]
      rw [List.getElem?_eq_getElem hj]; rfl) (by
      intro x hx
      obtain ⟨c, hc, rfl⟩ := List.mem_map.1 hx
      exact h32 c (by simp [hc])) (Or.inl ⟨rfl, rfl⟩)
  generalize hF : (init.map (·.samples)).foldl stscStep {} = F at hfold
  simp only [List.length_map, Nat.zero_add] at hfold
  obtain ⟨_, hG, hout⟩ := hfold
  have hl32 : u32 l.samples = l.samples := Nat.mod_eq_of_lt (h32 l (by simp))
  have hfl : f (init.length + 1) = l.samples := by simp [f]
  have hent : ∃ es, stscEntries (init ++ [l]) allowEmpty = some es ∧ Good f (init.length + 1) es := by
    simp only [stscEntries, List.getLast?_concat, List.dropLast_concat, hF, List.length_append, List.length_singleton,
      hl32]
    refine ⟨_, rfl, ?_⟩
    by_cases h0 : 0 < init.length
    · rw [if_pos (by omega)]
      have := good_push f init.length _ (hG h0)
      rw [hfl] at this
      exact this
    · have hz : init.length = 0 := by omega
      rw [if_neg (by omega), hout hz, hz]
      rw [hz] at hfl
      have := good_one f
      rw [show f 1 = l.samples from hfl] at this
      exact this
  obtain ⟨es, h1, hgood⟩ := hent
  have hin : ∀ i, i < (init ++ [l]).length → ∃ c, (init ++ [l])[i]? = some c ∧ f (i + 1) = c.samples := by
    intro i hi
    refine ⟨_, List.getElem?_eq_getElem hi, ?_⟩
    simp only [f, Nat.add_sub_cancel, List.getElem?_eq_getElem hi]
  refine ⟨es, h1, ⟨hgood.head, hgood.sorted, ?_⟩, ?_, ?_⟩
  · intro e he
    obtain ⟨p1, p2, p3⟩ := hgood.pos e he
    obtain ⟨c, hc1, hc2⟩ := hin (e.1 - 1) (by simp; omega)
    rw [show e.1 - 1 + 1 = e.1 by omega] at hc2
    rw [← p3, hc2]
    exact hpos c (List.mem_of_getElem? hc1)
  · intro e he
    have := hgood.le e he
    simpa using this
  · intro i c hc
    have hi : i < (init ++ [l]).length := (List.getElem?_eq_some_iff.1 hc).1
    obtain ⟨c', hc1, hc2⟩ := hin i hi
    rw [hc] at hc1; simp at hc1; subst hc1
    simp only [List.length_append, List.length_singleton] at hi
    rw [hgood.look (i + 1) (by omega) (by omega), hc2]

example : stscEntries [⟨0, 3⟩, ⟨100, 3⟩, ⟨200, 5⟩, ⟨300, 5⟩, ⟨400, 5⟩] false = some [(1, 3), (3, 5), (5, 5)] := by
  decide

/-! ### where samples are -/

/-- the samples lie one after another from position `p` -/
def Contig : Nat → List SampleIn → Prop
  | _, [] => True
  | p, x :: g => x.position = p ∧ Contig (p + x.size) g

def sizes (g : List SampleIn) : Nat := (g.map (·.size)).sum

theorem contig_append : ∀ (g : List SampleIn) (p : Nat) (x : SampleIn), Contig p g → x.position = p + sizes g →
    Contig p (g ++ [x])
  | [], p, x, _, h => ⟨by simpa [sizes] using h, trivial⟩
  | y :: g, p, x, h, hx => ⟨h.1, contig_append g _ x h.2 (by simp [sizes] at hx ⊢; omega)⟩

theorem contig_get : ∀ (g : List SampleIn) (p i : Nat) (x : SampleIn), Contig p g → g[i]? = some x →
    x.position = p + sizes (g.take i)
  | [], _, _, _, _, h => by simp at h
  | y :: g, p, 0, x, h, hx => by simp at hx; subst hx; simp [sizes, h.1]
  | y :: g, p, i + 1, x, h, hx => by
    have := contig_get g (p + y.size) i x h.2 (by simpa using hx)
    simp [sizes] at this ⊢; omega

def des (x : SampleIn) : SampleDes := ⟨x.composition, x.decoding, x.size⟩

/-- the stream after some samples: complete chunks and the current one -/
structure CInv (s : WStream) (groups : List (Nat × List SampleIn)) (p : Nat) (cur : List SampleIn) : Prop where
  chunks : s.chunks = groups.map (fun g => ⟨g.1, g.2.length⟩)
  good : ∀ g ∈ groups, g.2 ≠ [] ∧ Contig g.1 g.2
  cont : Contig p cur
  ne : cur ≠ []
  last : s.lastEnd = some (p + sizes cur)
  start : s.chunkStart = p
  count : s.inChunk = cur.length
  fl : s.flushed = false

theorem chunkStep_fields (s : WStream) (x : SampleIn) :
    (chunkStep s x).samples = s.samples ∧ (chunkStep s x).hasSize = s.hasSize ∧
      (chunkStep s x).hasComposition = s.hasComposition ∧ (chunkStep s x).iframes = s.iframes ∧
      (chunkStep s x).visual = s.visual := by
  simp only [chunkStep]
  cases s.lastEnd <;> simp only <;> split <;> exact ⟨rfl, rfl, rfl, rfl, rfl⟩

theorem sampleWritten_fields (s : WStream) (x : SampleIn) :
    (sampleWritten s x).chunks = (chunkStep s x).chunks ∧
    (sampleWritten s x).lastEnd = (chunkStep s x).lastEnd ∧
    (sampleWritten s x).chunkStart = (chunkStep s x).chunkStart ∧
    (sampleWritten s x).inChunk = (chunkStep s x).inChunk ∧
    (sampleWritten s x).flushed = false ∧
    (sampleWritten s x).samples = s.samples ++ [des x] ∧
    (sampleWritten s x).visual = s.visual ∧
    (sampleWritten s x).iframes = (if s.visual ∧ x.sync then s.iframes ++ [s.samples.length] else s.iframes) ∧
    (sampleWritten s x).hasSize = (match s.hasSize, s.samples.getLast? with
      | false, some l => decide (x.size ≠ l.size) | b, _ => b) ∧
    (sampleWritten s x).hasComposition = (s.hasComposition || decide (x.composition ≠ x.decoding)) := by
  obtain ⟨h1, h2, h3, h4, h5⟩ := chunkStep_fields s x
  simp only [sampleWritten]
  generalize chunkStep s x = t at *
  rw [← h1, ← h2, ← h3, ← h4, ← h5]
  obtain ⟨a, b, c, d, e, f, g, hs, i, v⟩ := t
  simp only
  cases v <;> cases hsync : x.sync <;> cases g <;> cases hs <;> cases hl : a.getLast? <;>
    simp_all [des]

theorem chunkStep_inv (s : WStream) (x : SampleIn) (groups : List (Nat × List SampleIn)) (p : Nat)
    (cur : List SampleIn) (h : CInv s groups p cur) :
    ∃ groups' p' cur', CInv (sampleWritten s x) groups' p' cur' ∧
      groups'.flatMap (·.2) ++ cur' = groups.flatMap (·.2) ++ cur ++ [x] := by
  obtain ⟨f1, f2, f3, f4, f5, _⟩ := sampleWritten_fields s x
  obtain ⟨h1, h2, h3, h4, h5, h6, h7, h8⟩ := h
  by_cases hp : x.position = p + sizes cur
  · refine ⟨groups, p, cur ++ [x], ⟨?_, h2, contig_append cur p x h3 hp, by simp, ?_, ?_, ?_, f5⟩, by simp⟩
    · rw [f1]; simp [chunkStep, h5, hp, h1]
    · rw [f2]; simp [chunkStep, h5, hp, sizes]; omega
    · rw [f3]; simp [chunkStep, h5, hp, h6]
    · rw [f4]; simp [chunkStep, h5, hp, h7]
  · have hp' : ¬ p + sizes cur = x.position := fun h => hp h.symm
    refine ⟨groups ++ [(p, cur)], x.position, [x], ⟨?_, ?_, ⟨rfl, trivial⟩, by simp, ?_, ?_, ?_, f5⟩, by simp⟩
    · rw [f1]; simp [chunkStep, h5, hp', registerChunk, h1, h6, h7]
    · intro g hg
      rcases List.mem_append.1 hg with h | h
      · exact h2 g h
      · simp at h; subst h; exact ⟨h4, h3⟩
    · rw [f2]; simp [chunkStep, h5, registerChunk, sizes]
    · rw [f3]; simp [chunkStep, h5, hp', registerChunk]
    · rw [f4]; simp [chunkStep, h5, hp', registerChunk]

theorem writeAll_inv (xs : List SampleIn) : ∀ (s : WStream) (groups : List (Nat × List SampleIn)) (p : Nat)
    (cur : List SampleIn), CInv s groups p cur →
    ∃ groups' p' cur', CInv (writeAll s xs) groups' p' cur' ∧
      groups'.flatMap (·.2) ++ cur' = groups.flatMap (·.2) ++ cur ++ xs := by
  induction xs with
  | nil => intro s g p c h; exact ⟨g, p, c, h, by simp⟩
  | cons x xs ih =>
    intro s g p c h
    obtain ⟨g1, p1, c1, h1, e1⟩ := chunkStep_inv s x g p c h
    obtain ⟨g2, p2, c2, h2, e2⟩ := ih _ _ _ _ h1
    exact ⟨g2, p2, c2, h2, by rw [e2, e1]; simp⟩

/-- After writing and flushing: the chunks are a partition of the samples into contiguous runs. -/
theorem chunks_partition (x : SampleIn) (xs : List SampleIn) (visual : Bool) :
    ∃ groups : List (Nat × List SampleIn),
      (flush (writeAll { visual } (x :: xs))).chunks = groups.map (fun g => ⟨g.1, g.2.length⟩) ∧
      (∀ g ∈ groups, g.2 ≠ [] ∧ Contig g.1 g.2) ∧ groups.flatMap (·.2) = x :: xs := by
  have h0 : CInv (sampleWritten { visual } x) [] x.position [x] := by
    obtain ⟨f1, f2, f3, f4, f5, _⟩ := sampleWritten_fields { visual } x
    refine ⟨?_, by simp, ⟨rfl, trivial⟩, by simp, ?_, ?_, ?_, f5⟩
    · rw [f1]; simp [chunkStep]
    · rw [f2]; simp [chunkStep, sizes]
    · rw [f3]; simp [chunkStep]
    · rw [f4]; simp [chunkStep]
  obtain ⟨g, p, c, h, e⟩ := writeAll_inv xs _ _ _ _ h0
  refine ⟨g ++ [(p, c)], ?_, ?_, ?_⟩
  · have : writeAll { visual } (x :: xs) = writeAll (sampleWritten { visual } x) xs := rfl
    rw [this]
    simp [flush, h.fl, registerChunk, h.chunks, h.start, h.count]
  · intro g' hg
    rcases List.mem_append.1 hg with h' | h'
    · exact h.good g' h'
    · simp at h'; subst h'; exact ⟨h.ne, h.cont⟩
  · simpa using e

theorem writeAll_fields (xs : List SampleIn) : ∀ (s : WStream),
    (writeAll s xs).samples = s.samples ++ xs.map des ∧ (writeAll s xs).visual = s.visual := by
  induction xs with
  | nil => intro s; simp [writeAll]
  | cons x xs ih =>
    intro s
    have h := ih (sampleWritten s x)
    obtain ⟨_, _, _, _, _, f6, f7, _⟩ := sampleWritten_fields s x
    refine ⟨?_, ?_⟩
    · show (writeAll (sampleWritten s x) xs).samples = _
      rw [h.1, f6]; simp
    · show (writeAll (sampleWritten s x) xs).visual = _
      rw [h.2, f7]

theorem flush_fields (s : WStream) : (flush s).samples = s.samples ∧ (flush s).hasSize = s.hasSize ∧
    (flush s).iframes = s.iframes ∧ (flush s).visual = s.visual ∧ (flush s).hasComposition = s.hasComposition := by
  simp only [flush]; split <;> exact ⟨rfl, rfl, rfl, rfl, rfl⟩

/-- `_has_size` holds exactly when two neighbouring samples differ in size. -/
theorem hasSize_iff (xs : List SampleIn) : ∀ (s : WStream),
    (s.hasSize = true → (writeAll s xs).hasSize = true) ∧
    (s.hasSize = false → ∀ l, s.samples.getLast? = some l →
      ((writeAll s xs).hasSize = true ↔ ∃ x ∈ xs, x.size ≠ l.size)) := by
  induction xs with
  | nil => intro s; exact ⟨fun h => h, fun h l _ => by simp [writeAll, h]⟩
  | cons x xs ih =>
    intro s
    obtain ⟨_, _, _, _, _, f6, _, _, f9, _⟩ := sampleWritten_fields s x
    obtain ⟨i1, i2⟩ := ih (sampleWritten s x)
    have hlast : (sampleWritten s x).samples.getLast? = some (des x) := by rw [f6]; simp
    refine ⟨?_, ?_⟩
    · intro h
      exact i1 (by rw [f9, h])
    · intro h l hl
      rw [h, hl] at f9
      simp only at f9
      by_cases hx : x.size = l.size
      · have : (sampleWritten s x).hasSize = false := by rw [f9]; simp [hx]
        have := i2 this _ hlast
        show (writeAll (sampleWritten s x) xs).hasSize = true ↔ _
        rw [this]
        simp [des, hx]
      · have : (sampleWritten s x).hasSize = true := by rw [f9]; simp [hx]
        have := i1 this
        show (writeAll (sampleWritten s x) xs).hasSize = true ↔ _
        rw [this]
        simp [hx]

theorem hasSize_true (x y : SampleIn) (xs : List SampleIn) (visual : Bool) (hy : y ∈ xs) (hne : y.size ≠ x.size) :
    (writeAll { visual } (x :: xs)).hasSize = true := by
  obtain ⟨_, _, _, _, _, f6, _, _, f9, _⟩ := sampleWritten_fields { visual } x
  have := ((hasSize_iff xs (sampleWritten { visual } x)).2 (by rw [f9]; rfl) (des x) (by rw [f6]; simp)).2
  exact this ⟨y, hy, hne⟩

/-- C13 (partial: false when all samples have the same size, see `stsz_equal_sizes_witness`). When not all samples
have the same size, the size table declares the number of samples and the size of each of them. -/
theorem stsz_written_partial (x y : SampleIn) (xs : List SampleIn) (visual : Bool) (hy : y ∈ xs)
    (hne : y.size ≠ x.size) (hlen : (x :: xs).length < 2 ^ 32) (h32 : ∀ z ∈ x :: xs, z.size < 2 ^ 32)
    (rest : List Nat) :
    parseStsz (stszWords (flush (writeAll { visual } (x :: xs))) ++ rest) =
      some (0, (x :: xs).length, (x :: xs).map (·.size)) := by
  obtain ⟨g1, g2, _⟩ := flush_fields (writeAll { visual } (x :: xs))
  have hs := (writeAll_fields (x :: xs) { visual }).1
  rw [List.nil_append] at hs
  have hh := hasSize_true x y xs visual hy hne
  simp only [stszWords, g1, g2, hs, hh, if_true, List.length_map, u32, Nat.mod_eq_of_lt hlen]
  have hm : ((x :: xs).map des).map (fun z => z.size % 2 ^ 32) = (x :: xs).map (·.size) := by
    rw [List.map_map]
    apply List.map_congr_left
    intro z hz
    exact Nat.mod_eq_of_lt (h32 z hz)
  rw [hm]
  simp only [parseStsz, List.cons_append, if_true]
  rw [if_pos (by simp)]
  rw [List.take_left' (by simp)]

/-- C13 is false of the code: a stream whose samples all have the same size (in particular a single sample) gets
a table that declares all samples but holds no size at all. -/
theorem stsz_equal_sizes_witness (x : SampleIn) (xs : List SampleIn) (visual : Bool)
    (h : ∀ y ∈ xs, y.size = x.size) :
    stszWords (flush (writeAll { visual } (x :: xs))) = [0, u32 (x :: xs).length] := by
  obtain ⟨g1, g2, _⟩ := flush_fields (writeAll { visual } (x :: xs))
  have hs := (writeAll_fields (x :: xs) { visual }).1
  rw [List.nil_append] at hs
  obtain ⟨_, _, _, _, _, f6, _, _, f9, _⟩ := sampleWritten_fields { visual } x
  have hh := ((hasSize_iff xs (sampleWritten { visual } x)).2 (by rw [f9]; rfl) (des x) (by rw [f6]; simp))
  have : (writeAll { visual } (x :: xs)).hasSize = false := by
    rw [← Bool.not_eq_true]
    intro hc
    obtain ⟨y, hy, hne⟩ := hh.1 hc
    exact hne (h y hy)
  simp [stszWords, g1, g2, hs, this]

theorem walk_eq (m : SampleManager) (zs : List Nat) (h0 : m.sampleSize = 0) (hz : m.sizes = zs)
    (sample remains : Nat) : ∀ (n i off : Nat), sample - remains + i + n ≤ zs.length →
    m.walk sample remains n i off = some (off + ((zs.drop (sample - remains + i)).take n).sum) := by
  intro n
  induction n with
  | zero => intro i off _; simp [SampleManager.walk]
  | succ n ih =>
    intro i off h
    have hlt : sample - remains + i < zs.length := by omega
    simp only [SampleManager.walk, SampleManager.size, h0, if_true, hz, List.getElem?_eq_getElem hlt]
    rw [ih (i + 1) _ (by omega), List.drop_eq_getElem_cons hlt, List.take_succ_cons, List.sum_cons]
    rw [show sample - remains + (i + 1) = sample - remains + i + 1 by omega, Nat.add_assoc]

theorem flat_get : ∀ (groups : List (Nat × List SampleIn)) (i r : Nat) (g : Nat × List SampleIn),
    groups[i]? = some g → r < g.2.length →
    (groups.flatMap (·.2))[((groups.take i).map (·.2.length)).sum + r]? = g.2[r]? ∧
    ((groups.flatMap (·.2)).drop ((groups.take i).map (·.2.length)).sum).take r = g.2.take r := by
  intro groups
  induction groups with
  | nil => intro i r g h; simp at h
  | cons a groups ih =>
    intro i r g h hr
    cases i with
    | zero =>
      simp at h; subst h
      simp only [List.take_zero, List.map_nil, List.sum_nil, Nat.zero_add, List.flatMap_cons, List.drop_zero]
      exact ⟨List.getElem?_append_left hr, List.take_append_of_le_length (by omega)⟩
    | succ i =>
      have := ih i r g (by simpa using h) hr
      simp only [List.take_succ_cons, List.map_cons, List.sum_cons, List.flatMap_cons]
      rw [List.getElem?_append_right (by omega), List.drop_append]
      rw [show a.2.length + ((groups.take i).map (·.2.length)).sum + r - a.2.length =
        ((groups.take i).map (·.2.length)).sum + r by omega, Nat.add_sub_cancel_left]
      rw [List.drop_eq_nil_of_le (by omega), List.nil_append]
      exact this

theorem sb_groups (f : Nat → Nat) : ∀ (groups : List (Nat × List SampleIn)),
    (∀ i g, groups[i]? = some g → f (i + 1) = g.2.length) → ∀ n, n ≤ groups.length →
    samplesBefore f (n + 1) = ((groups.take n).map (·.2.length)).sum := by
  intro groups h n
  induction n with
  | zero => intro _; simp [samplesBefore]
  | succ n ih =>
    intro hn
    rw [sb_succ f (n + 1) (by omega), ih (by omega), List.take_add_one, List.getElem?_eq_getElem (by omega : n < groups.length)]
    rw [h n _ (List.getElem?_eq_getElem (by omega)), List.map_append, List.sum_append]
    simp only [Option.toList_some, List.map_cons, List.map_nil, List.sum_cons, List.sum_nil, Nat.add_zero]

/-- C10 (partial only because of the size table defect of C13: not all samples of one size). For any samples
written at any file positions, the chunk, size and offset tables written for the stream, read back, give for
every sample number the position (moved by the media data offset) and the size at which it was written. -/
theorem samples_found_partial (x y : SampleIn) (xs : List SampleIn) (visual allowEmpty : Bool) (mdat : Nat)
    (hy : y ∈ xs) (hne : y.size ≠ x.size) (hlen : (x :: xs).length < 2 ^ 32)
    (h32 : ∀ z ∈ x :: xs, z.size < 2 ^ 32 ∧ z.position + mdat < 2 ^ 32) (r1 r2 r3 : List Nat) :
    ∃ es cm offs,
      stscEntries (flush (writeAll { visual } (x :: xs))).chunks allowEmpty = some es ∧
      parseStsc (stscWords es ++ r1) = some cm ∧
      parseStco (stcoWords (flush (writeAll { visual } (x :: xs))) mdat ++ r2) = some offs ∧
      parseStsz (stszWords (flush (writeAll { visual } (x :: xs))) ++ r3) =
        some (0, (x :: xs).length, (x :: xs).map (·.size)) ∧
      ∀ i z, (x :: xs)[i]? = some z →
        (SampleManager.mk cm 0 (x :: xs).length ((x :: xs).map (·.size)) offs).offset i = some (z.position + mdat) ∧
        (SampleManager.mk cm 0 (x :: xs).length ((x :: xs).map (·.size)) offs).size i = some z.size := by
  have hsz := stsz_written_partial x y xs visual hy hne hlen (fun z hz => (h32 z hz).1) r3
  obtain ⟨groups, hch, hgood, hflat⟩ := chunks_partition x xs visual
  generalize hst : flush (writeAll { visual } (x :: xs)) = st at *
  generalize hX : x :: xs = X at *
  -- group lengths
  have hglen : ∀ g ∈ groups, 0 < g.2.length ∧ g.2.length ≤ X.length := by
    intro g hg
    refine ⟨List.length_pos_iff.2 (hgood g hg).1, ?_⟩
    rw [← hflat]
    have : g.2.Sublist (groups.flatMap (·.2)) := List.sublist_flatten_of_mem (List.mem_map.2 ⟨g, hg, rfl⟩)
    exact this.length_le
  have hgne : groups ≠ [] := by
    intro h; rw [h] at hflat; rw [← hX] at hflat; simp at hflat
  have hcne : st.chunks ≠ [] := by
    rw [hch]; intro h; exact hgne (List.map_eq_nil_iff.1 h)
  obtain ⟨es, he1, he2, he3, he4⟩ := stsc_written st.chunks allowEmpty hcne
    (by
      rw [hch]; intro c hc
      obtain ⟨g, hg, rfl⟩ := List.mem_map.1 hc
      have := (hglen g hg).2; show g.2.length < _; omega)
    (by
      rw [hch]; intro c hc
      obtain ⟨g, hg, rfl⟩ := List.mem_map.1 hc
      exact (hglen g hg).1)
  have hfl : ∀ i g, groups[i]? = some g → samplesInChunk es (i + 1) = g.2.length := by
    intro i g hg
    exact he4 i ⟨g.1, g.2.length⟩ (by rw [hch, List.getElem?_map, hg]; rfl)
  have hclen : st.chunks.length = groups.length := by rw [hch, List.length_map]
  have htot : samplesBefore (samplesInChunk es) (groups.length + 1) = X.length := by
    rw [sb_groups _ groups hfl _ (Nat.le_refl _), List.take_length, ← hflat, List.length_flatMap]
  have hgl : groups.length ≤ X.length := by
    rw [← hflat, List.length_flatMap]
    have : ∀ (gs : List (Nat × List SampleIn)), (∀ g ∈ gs, 0 < g.2.length) → gs.length ≤ (gs.map (·.2.length)).sum := by
      intro gs
      induction gs with
      | nil => simp
      | cons a gs ih =>
        intro h
        have := ih (fun g hg => h g (by simp [hg]))
        have := h a (by simp)
        simp; omega
    exact this groups (fun g hg => (hglen g hg).1)
  have hbound : ∀ e ∈ es, e.1 < 2 ^ 32 ∧ samplesBefore (samplesInChunk es) (e.1 + 1) < 2 ^ 32 := by
    intro e he
    have h1 := he3 e he
    rw [hclen] at h1
    have h2 := sb_mono (samplesInChunk es) (e.1 + 1) (groups.length - e.1) (by omega)
    rw [show e.1 + 1 + (groups.length - e.1) = groups.length + 1 by omega, htot] at h2
    omega
  refine ⟨es, runs (samplesBefore (samplesInChunk es)) es,
    groups.map (fun g => g.1 + mdat), he1,
    parse_runs _ es he2 (sic_agree es he2.2.1) hbound r1, ?_, hsz, ?_⟩
  · have hpos : ∀ g ∈ groups, g.1 + mdat < 2 ^ 32 := by
      intro g hg
      obtain ⟨hne', hc⟩ := hgood g hg
      cases hgs : g.2 with
      | nil => exact absurd hgs hne'
      | cons z zs =>
        rw [hgs] at hc
        have hz : z ∈ X := by
          rw [← hflat]
          exact List.mem_flatMap.2 ⟨g, hg, by rw [hgs]; simp⟩
        have := (h32 z hz).2
        rw [hc.1] at this; exact this
    simp only [stcoWords, parseStco, List.cons_append, hclen, u32, Nat.mod_eq_of_lt (show groups.length < 2 ^ 32 by omega)]
    rw [if_pos (by simp [hclen])]
    rw [List.take_left' (by simp [hclen]), hch, List.map_map]
    congr 1
    apply List.map_congr_left
    intro g hg
    exact Nat.mod_eq_of_lt (hpos g hg)
  · intro i z hz
    have hi : i < X.length := (List.getElem?_eq_some_iff.1 hz).1
    obtain ⟨m, c, r, hm, hcn, hc1, hcr, hr⟩ := stsc_read es he2 hbound i (by omega) r1
    rw [parse_runs _ es he2 (sic_agree es he2.2.1) hbound r1] at hm
    simp only [Option.some.injEq] at hm
    subst hm
    have hcle : c ≤ groups.length := by
      rcases Nat.lt_or_ge groups.length c with h | h
      · exfalso
        have := sb_mono (samplesInChunk es) (groups.length + 1) (c - (groups.length + 1)) (by omega)
        rw [show groups.length + 1 + (c - (groups.length + 1)) = c by omega, htot] at this
        omega
      · exact h
    have hgc : groups[c - 1]? = some (groups[c - 1]'(by omega)) := List.getElem?_eq_getElem (by omega)
    generalize groups[c - 1]'(by omega) = g at hgc
    have hlen' := hfl (c - 1) g hgc
    rw [show c - 1 + 1 = c by omega] at hlen'
    rw [hlen'] at hr
    have hsb := sb_groups _ groups hfl (c - 1) (by omega)
    rw [show c - 1 + 1 = c by omega] at hsb
    obtain ⟨q1, q2⟩ := flat_get groups (c - 1) r g hgc hr
    rw [← hsb, hcr, hflat, hz] at q1
    rw [hflat, ← hsb] at q2
    have hgm : g ∈ groups := List.mem_of_getElem? hgc
    have hpz := contig_get g.2 g.1 r z (hgood g hgm).2 q1.symm
    refine ⟨?_, ?_⟩
    · simp only [SampleManager.offset, hcn]
      rw [if_neg (by omega)]
      have hu : u32 c = c := Nat.mod_eq_of_lt (by omega)
      rw [hu]
      simp only [List.getElem?_map, hgc, Option.map_some]
      rw [walk_eq _ (X.map (·.size)) rfl rfl i r r 0 (g.1 + mdat) (by simp; omega)]
      congr 1
      rw [show i - r + 0 = samplesBefore (samplesInChunk es) c by omega]
      rw [← List.map_drop, ← List.map_take, q2, hpz]
      simp only [sizes]
      omega
    · simp only [SampleManager.size, if_true, List.getElem?_map, hz, Option.map_some]

/-- three samples, the third not contiguous with the first two -/
example : let xs : List SampleIn := [⟨0, 0, true, 10, 40⟩, ⟨1, 1, false, 20, 50⟩, ⟨2, 2, false, 5, 100⟩]
    (flush (writeAll {} xs)).chunks = [⟨40, 2⟩, ⟨100, 1⟩] ∧
    stszWords (flush (writeAll {} xs)) = [0, 3, 10, 20, 5] ∧ stcoWords (flush (writeAll {} xs)) 8 = [2, 48, 108] := by
  decide

end Verif.Tables

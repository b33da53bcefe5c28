import Verif.Reader.FrameLemmas
/-
C45: the fragment cut out of a track between two times. C92: its base media decode time.
-/
namespace Verif.Reader
open Verif.Tables Verif.RangeMap Verif.Reader.Spec
open Verif.Tables.Spec (expand)

/-! ### positions after a move -/

/-- the sample found by composition time in a track without ctts: nothing before it is presented at the time or later,
and it is not after any sample that is -/
theorem compSample_plain {b : TrackBoxes} {t : Track} {es : List (Nat × Nat)} (h : Timed b t es) (hc : b.ctts = none)
    (time : Nat) : ∃ m, t.compSample time = some m ∧ m < t.count ∧
      (∀ i, i < m → startOf (expand es) i < raw time t.scale) ∧
      ∀ j, j < t.count → raw time t.scale ≤ startOf (expand es) j → m ≤ j := by
  obtain ⟨hdec, hcount, hscale, hlen⟩ := timed_dec h
  obtain ⟨hcomps, hct, _⟩ := timed_comps h hc
  have hfit := h.fits
  obtain ⟨n, hn, hiff⟩ := decoding_number es h.ne h.pos (raw time t.scale) (by omega) (raw_lt _ _)
  have hp := expand_pos h.pos
  obtain ⟨τ, hτ⟩ : ∃ τ, τ = raw time t.scale := ⟨_, rfl⟩
  rw [← hτ] at hn hiff ⊢
  have hraw : t.compSampleRaw τ = some n := by simp only [Track.compSampleRaw, hct, hdec, hn]; rfl
  have hct' : ∀ i, i < (expand es).length → compositionTime t.comps i = some (startOf (expand es) i) := by
    intro i hi
    simp [compositionTime, hcomps, compsOf_get, List.getElem?_eq_getElem hi]
  simp only [Track.compSample, ← hτ, hraw]
  by_cases h0 : n = 0
  · refine ⟨0, by simp [h0], by omega, by omega, by omega⟩
  rw [if_neg h0]
  by_cases h1 : n ≥ t.count
  · refine ⟨t.count - 1, by rw [if_pos h1], by omega, ?_, ?_⟩
    · intro i hi
      have := startOf_lt (expand es) hp (t.count - 1) i hi (by omega)
      have := (hiff (t.count - 1) (by omega)).2 (by omega)
      omega
    · intro j hj hle
      have := (hiff (t.count - 1) (by omega)).2 (by omega)
      by_contra hcon
      have := startOf_lt (expand es) hp (t.count - 1) j (by omega) (by omega)
      omega
  rw [if_neg h1, hct' n (by omega)]
  have hle := (hiff n (by omega)).2 (Nat.le_refl _)
  have hlow : ∀ i, i < n → startOf (expand es) i < τ := by
    intro i hi
    have := startOf_lt (expand es) hp n i hi (by omega)
    omega
  by_cases h2 : startOf (expand es) n < τ
  · simp only [if_pos h2]
    have hall : ∀ i, i < n + 1 → startOf (expand es) i < τ := by
      intro i hi
      rcases Nat.lt_or_ge i n with h | h
      · exact hlow i h
      · have : i = n := by omega
        subst this; exact h2
    have hj : ∀ j, j < t.count → τ ≤ startOf (expand es) j → n + 1 ≤ j := by
      intro j hj hle'
      by_contra hcon
      have := startOf_le (expand es) hp j n (by omega) (by omega)
      omega
    by_cases h3 : n + 1 ≥ t.count
    · refine ⟨t.count - 1, by rw [if_pos h3], by omega, fun i hi => hall i (by omega), ?_⟩
      intro j hj' hle'
      have := hj j hj' hle'
      omega
    · exact ⟨n + 1, by rw [if_neg h3], by omega, hall, hj⟩
  · simp only [if_neg h2, if_neg h1]
    refine ⟨n, rfl, by omega, hlow, ?_⟩
    intro j hj hle'
    by_contra hcon
    have := startOf_lt (expand es) hp n j (by omega) (by omega)
    omega

theorem decodingSampleNumber_total (m : RMap Dec) (h : m ≠ []) (τ : Nat) : ∃ n, decodingSampleNumber m τ = some n := by
  obtain ⟨code, i, e, g, _⟩ := range_map_total m τ h
  simp [decodingSampleNumber, g]

theorem holds_comp {t : Track} {xs : List Sample} (h : Holds t xs) (n : Nat) (x : Sample) (hx : xs[n]? = some x) :
    ∃ c, compositionTime t.comps n = some c ∧ x.composition = hns c t.scale ∧ x.number = n := by
  have hn : n < xs.length := (List.getElem?_eq_some_iff.1 hx).1
  have h1 := h n
  rw [hx, Track.pick, if_neg (by rw [holds_count h]; omega)] at h1
  simp only [Option.bind_eq_bind, Option.bind_eq_some_iff, Option.pure_def, Option.some.injEq] at h1
  obtain ⟨_, _, _, _, c, hc, _, _, _, _, _, _, rfl⟩ := h1
  simp only [Track.composition, Option.map_eq_some_iff] at hc
  obtain ⟨c, hc, rfl⟩ := hc
  exact ⟨c, hc, rfl, rfl⟩

theorem holds_dec {t : Track} {xs : List Sample} (h : Holds t xs) (n : Nat) (x : Sample) (hx : xs[n]? = some x) :
    (∃ c, decodingTime t.comps n = some c ∧ x.decoding = hns c t.scale) ∧ isIFrame t.iframes n = some x.sync := by
  have hn : n < xs.length := (List.getElem?_eq_some_iff.1 hx).1
  have h1 := h n
  rw [hx, Track.pick, if_neg (by rw [holds_count h]; omega)] at h1
  simp only [Option.bind_eq_bind, Option.bind_eq_some_iff, Option.pure_def, Option.some.injEq] at h1
  obtain ⟨_, _, _, _, _, _, c, hc, _, _, f, hf, rfl⟩ := h1
  simp only [Track.decoding, Option.map_eq_some_iff] at hc
  obtain ⟨c, hc, rfl⟩ := hc
  exact ⟨⟨c, hc, rfl⟩, hf⟩

theorem moveStream_total {t : Track} {xs : List Sample} (h : Holds t xs) (hd : 0 < t.count → t.decMap ≠ [])
    (d c p : Nat) : ∃ n, moveStream d c t p = some n := by
  simp only [moveStream]
  by_cases h0 : t.count = 0
  · simp [h0]
  have hne := hd (by omega)
  simp only [h0, if_false]
  split
  · split
    · simp only [Track.compSample]
      obtain ⟨n, hn⟩ : ∃ n, t.compSampleRaw (raw (c - t.offset) t.scale) = some n := by
        simp only [Track.compSampleRaw]
        split
        · exact ⟨_, rfl⟩
        · exact decodingSampleNumber_total _ hne _
      rw [hn]
      simp only
      split
      · exact ⟨_, rfl⟩
      · split
        · exact ⟨_, rfl⟩
        · rename_i hnc
          have hlt : n < xs.length := by rw [← holds_count h]; omega
          obtain ⟨c', hc', _⟩ := holds_comp h n _ (List.getElem?_eq_getElem hlt)
          rw [hc']
          simp only
          split <;> first | exact ⟨_, rfl⟩ | (split <;> exact ⟨_, rfl⟩)
    · exact ⟨_, rfl⟩
  · exact decodingSampleNumber_total _ hne _

theorem moveStreams_spec (d c : Nat) : ∀ (ss : List (Track × Nat)) (xss : List (List Sample)),
    List.Forall₂ (fun s xs => Holds s.1 xs) ss xss → (∀ s ∈ ss, 0 < s.1.count → s.1.decMap ≠ []) →
    ∃ ss', moveStreams d c ss = some ss' ∧ List.Forall₂ (fun s xs => Holds s.1 xs) ss' xss ∧
      ∀ (i : Nat) (t : Track) (p : Nat), ss[i]? = some (t, p) → ∃ n, ss'[i]? = some (t, n) ∧ moveStream d c t p = some n := by
  intro ss xss h
  induction h with
  | nil => intro _; exact ⟨[], rfl, .nil, by simp⟩
  | @cons a b ss xss ha _ ih =>
    intro hd
    obtain ⟨t, p⟩ := a
    obtain ⟨n, hn⟩ := moveStream_total ha (hd (t, p) (by simp)) d c p
    obtain ⟨ss', e1, e2, e3⟩ := ih (fun s hs => hd s (by simp [hs]))
    refine ⟨(t, n) :: ss', by simp [moveStreams, hn, e1], .cons ha e2, ?_⟩
    intro i t' p' hi
    cases i with
    | zero => simp at hi; obtain ⟨rfl, rfl⟩ := hi; exact ⟨n, rfl, hn⟩
    | succ i => simpa using e3 i t' p' (by simpa using hi)

/-- cutting, once the position after the move is known -/
theorem addFrames_from (r : Reader) (xss : List (List Sample)) (h : FileHolds r xss) (ht : HasTimes r)
    (hin : Inside xss r.mdatEnd) (hmax : r.mdatEnd < 2 ^ 64 - 1) (id : Nat) (t : Track) (p : Nat)
    (hid : r.streams[id]? = some (t, p)) (xs : List Sample) (hxs : xss[id]? = some xs)
    (hfit : ∀ x ∈ xs, x.composition + t.offset < 2 ^ 64) (start stop : Nat) (base : Option Nat)
    (J : Nat) (x : Sample) (hJ : leadSample t start = some J) (hx : xs[J]? = some x)
    (m : Nat) (hm : moveStream x.decoding (x.composition + t.offset) t p = some m) :
    let out := (((xs.drop m).takeWhile (fun x => decide (pres t x < stop))).filter
      (fun x => decide (start ≤ pres t x))).map (toAdded t)
    addFrames r id start stop base = some (out, out.head?.map (baseTime start base)) := by
  obtain ⟨a, ha, hold⟩ := forall₂_get h id xs hxs
  rw [hid] at ha; simp at ha; subst ha
  obtain ⟨c, c1, c2, _⟩ := holds_comp hold J x hx
  obtain ⟨⟨d, d1, d2⟩, _⟩ := holds_dec hold J x hx
  obtain ⟨ss', e1, e2, e3⟩ := moveStreams_spec x.decoding (x.composition + t.offset) r.streams xss h ht
  obtain ⟨n, f1, f2⟩ := e3 id t p hid
  rw [hm] at f2; simp at f2; subst f2
  have hmod : (x.composition + t.offset) % 2 ^ 64 = x.composition + t.offset :=
    Nat.mod_eq_of_lt (hfit x (List.mem_of_getElem? hx))
  have hmove : move r start id = some { r with streams := ss', last := 0 } := by
    simp only [move, hid, hJ, Track.decoding, Track.composition, c1, d1, Option.map_some, ← c2, ← d2, hmod, e1]
  obtain ⟨g1, g2, g3⟩ := rem_of_holds e2
  have := framesLoop_eq t id start stop base (remaining ss' + 1) { r with streams := ss', last := 0 } _ none g1 (by
    intro l hl x hx
    obtain ⟨i, hi, rfl⟩ := List.mem_iff_getElem.1 hl
    simp only [List.getElem_zipWith] at hx
    exact hin _ (List.getElem_mem _) x (List.mem_of_mem_drop hx)) (by simpa [max64] using hmax) (by omega)
    (xs.drop m) (by simp [List.getElem?_zipWith, f1, hxs]) (fun x hx => hfit x (List.mem_of_mem_drop hx))
  simp only [addFrames, hid, hmove]
  exact this

/-! ### exactness -/

theorem take_filter_window (t : Track) (start stop : Nat) : ∀ (xs : List Sample), Separates t stop xs →
    (xs.takeWhile (fun x => decide (pres t x < stop))).filter (fun x => decide (start ≤ pres t x)) = window t start stop xs := by
  intro xs
  induction xs with
  | nil => intro _; rfl
  | cons x xs ih =>
    intro h
    obtain ⟨h1, h2⟩ := List.pairwise_cons.1 h
    by_cases hx : pres t x < stop
    · have := ih h2
      simp only [window] at this ⊢
      simp only [List.takeWhile_cons, hx, decide_true, if_true, List.filter_cons, and_true, this]
    · simp only [window, List.takeWhile_cons, hx, decide_false, Bool.false_eq_true, if_false, List.filter_nil, List.filter_cons, and_false]
      symm
      rw [List.filter_eq_nil_iff]
      intro y hy
      have := h1 y hy (by omega)
      simp; omega

theorem window_drop (t : Track) (start stop m : Nat) (xs : List Sample)
    (h : ∀ i x, i < m → xs[i]? = some x → pres t x < start) : window t start stop (xs.drop m) = window t start stop xs := by
  conv => rhs; rw [← List.take_append_drop m xs]
  rw [window, window, List.filter_append]
  have : (xs.take m).filter (fun x => decide (start ≤ pres t x ∧ pres t x < stop)) = [] := by
    rw [List.filter_eq_nil_iff]
    intro x hx
    obtain ⟨i, hi⟩ := List.mem_iff_getElem?.1 hx
    rw [List.getElem?_take] at hi
    split at hi
    · have := h i x (by assumption) hi
      simp; omega
    · simp at hi
  rw [this, List.nil_append]

theorem separates_drop {t : Track} {stop : Nat} {xs : List Sample} (h : Separates t stop xs) (m : Nat) :
    Separates t stop (xs.drop m) := List.Pairwise.sublist (List.drop_sublist m xs) h

/-- the samples of a track without ctts, in terms of its time table -/
theorem plain_times {b : TrackBoxes} {t : Track} {es : List (Nat × Nat)} (h : Timed b t es) (hc : b.ctts = none)
    {xs : List Sample} (hold : Holds t xs) (i : Nat) (x : Sample) (hx : xs[i]? = some x) :
    x.composition = hns (startOf (expand es) i) t.scale ∧ 10000000 * startOf (expand es) i < 2 ^ 64 ∧
      i < (expand es).length := by
  obtain ⟨_, hcount, _, _⟩ := timed_dec h
  obtain ⟨hcomps, _, _⟩ := timed_comps h hc
  obtain ⟨c, c1, c2, _⟩ := holds_comp hold i x hx
  have hi : i < (expand es).length := by
    rw [← hcount, holds_count hold]; exact (List.getElem?_eq_some_iff.1 hx).1
  simp [compositionTime, hcomps, compsOf_get, List.getElem?_eq_getElem hi] at c1
  have := startOf_le_sum (expand es) i
  have := h.fits
  exact ⟨by rw [c2, c1], by omega, hi⟩

/-- in a track without ctts the samples are presented in their order, so that every time separates them -/
theorem plain_separates {b : TrackBoxes} {t : Track} {es : List (Nat × Nat)} (h : Timed b t es) (hc : b.ctts = none)
    {xs : List Sample} (hold : Holds t xs) (time : Nat) : Separates t time xs := by
  rw [Separates, List.pairwise_iff_getElem]
  intro i j hi hj hij hle
  obtain ⟨a1, _, a3⟩ := plain_times h hc hold i _ (List.getElem?_eq_getElem hi)
  obtain ⟨b1, b2, b3⟩ := plain_times h hc hold j _ (List.getElem?_eq_getElem hj)
  have := hns_mono _ _ t.scale (startOf_le (expand es) (expand_pos h.pos) i j (by omega) (by omega)) b2
  simp only [pres] at *
  omega

/-- C45. For every file, every track without composition offsets and sync table (audio), and all times `start` and
`stop`: the fragment cut between them holds exactly the samples presented from `start` on and before `stop`, once each
and in order. -/
theorem fragment_audio (r : Reader) (xss : List (List Sample)) (h : FileHolds r xss) (ht : HasTimes r)
    (hin : Inside xss r.mdatEnd) (hmax : r.mdatEnd < 2 ^ 64 - 1) (id : Nat) (b : TrackBoxes) (t : Track) (p : Nat)
    (es : List (Nat × Nat)) (hb : Timed b t es) (hctts : b.ctts = none) (hstss : b.stss = none)
    (hid : r.streams[id]? = some (t, p)) (xs : List Sample) (hxs : xss[id]? = some xs)
    (hfit : ∀ x ∈ xs, pres t x < 2 ^ 64) (start stop : Nat) (hstart : start < 2 ^ 64) (base : Option Nat) :
    ∃ dec, addFrames r id start stop base = some (window t start stop xs, dec) := by
  obtain ⟨a, ha, hold⟩ := forall₂_get h id xs hxs
  rw [hid] at ha; simp at ha; subst ha
  obtain ⟨hdec, hcount, hscale, hlen⟩ := timed_dec hb
  obtain ⟨hcomps, hct, hcc⟩ := timed_comps hb hctts
  obtain ⟨_, _, _, _, _, _, _, _, _, _, hst, _, _, _, _, _, hltc⟩ := openTrack_fields hb.opened
  have hst' : t.hasStss = false := by rw [hst, hstss]; rfl
  have hs : 0 < t.scale := hscale ▸ hb.scale
  -- the lead sample
  obtain ⟨J, hJ, hJc, hJlow⟩ : ∃ J, leadSample t start = some J ∧ J < t.count ∧
      ∀ i x, i < J → xs[i]? = some x → pres t x < start := by
    obtain ⟨k, hk⟩ : ∃ k, t.iframeNumber start = some k := by
      simp only [Track.iframeNumber, hst', Track.compSampleRaw, hct, hdec]
      exact decodingSampleNumber_total _ (by rw [← hdec]; exact ht (t, p) (List.mem_of_getElem? hid) (by simp only; omega)) _
    obtain ⟨m, m1, m2, m3, _⟩ := compSample_plain hb hctts (sub64 start t.offset)
    by_cases hlt : start < t.offset
    · exact ⟨0, by simp [leadSample, hk, hst', m1, hlt], by omega, by omega⟩
    · refine ⟨m, by simp [leadSample, hk, hst', m1, hlt], m2, ?_⟩
      intro i x hi hx
      obtain ⟨a1, a2, _⟩ := plain_times hb hctts hold i x hx
      have h64 : sub64 start t.offset = start - t.offset := by
        simp only [sub64]
        rw [show start + 2 ^ 64 - t.offset = (start - t.offset) + 2 ^ 64 by omega, Nat.add_mod_right,
          Nat.mod_eq_of_lt (by omega)]
      have := hns_lt_of_lt_raw _ _ t.scale hs a2 (m3 i hi)
      rw [h64] at this
      simp only [pres, a1]
      omega
  have hJx : J < xs.length := by rw [← holds_count hold]; exact hJc
  have hx := List.getElem?_eq_getElem hJx
  obtain ⟨a1, a2, _⟩ := plain_times hb hctts hold J _ hx
  -- the position
  obtain ⟨m, hm, hmJ⟩ : ∃ m, moveStream (xs[J]).decoding ((xs[J]).composition + t.offset) t p = some m ∧ m ≤ J := by
    simp only [moveStream, show ¬ t.count = 0 by omega, if_false, hst', hltc]
    simp only [Bool.false_eq_true, not_false_eq_true, and_self, if_true]
    split
    · obtain ⟨m, m1, m2, _, m4⟩ := compSample_plain hb hctts ((xs[J]).composition + t.offset - t.offset)
      refine ⟨m, m1, m4 J hJc ?_⟩
      rw [Nat.add_sub_cancel, a1]
      exact raw_hns_le _ _ a2
    · exact ⟨0, rfl, Nat.zero_le _⟩
  have := addFrames_from r xss h ht hin hmax id t p hid xs hxs hfit start stop base J _ hJ hx m hm
  simp only at this
  rw [take_filter_window t start stop _ (separates_drop (plain_separates hb hctts hold stop) m),
    window_drop t start stop m xs (fun i x hi hx => hJlow i x (by omega) hx)] at this
  have hadd : ∀ l : List Sample, l.map (toAdded t) = l := by
    intro l
    have : toAdded t = fun x => x := by funext x; simp [toAdded, hcc]
    rw [this, List.map_id']
  rw [hadd] at this
  exact ⟨_, this⟩

/-! ### tracks with a sync table -/

theorem iframe_find_last (ns : List Nat) : ∀ (prev : Nat), (prev :: ns).Pairwise (· < ·) → ∀ (k : Nat) (e : Nat × Nat),
    (iframeMap prev ns).find? (fun e => decide (k ≤ e.1)) = some e →
    e.2 ∈ prev :: ns ∧ (e.2 ≤ k ∨ e.2 = prev) ∧ ∀ n ∈ prev :: ns, n ≤ k → n ≤ e.2 := by
  induction ns with
  | nil =>
    intro prev _ k e he
    simp [iframeMap] at he
    obtain ⟨_, rfl⟩ := he
    simp
  | cons m ms ih =>
    intro prev h k e he
    obtain ⟨h1, h2⟩ := List.pairwise_cons.1 h
    have hpm := h1 m (by simp)
    by_cases hk : k ≤ m - 1
    · simp [iframeMap, List.find?_cons, hk] at he
      subst he
      refine ⟨by simp, .inr rfl, ?_⟩
      intro n hn hnk
      rcases List.mem_cons.1 hn with rfl | hn
      · exact Nat.le_refl _
      · exfalso
        rcases List.mem_cons.1 hn with rfl | hn
        · omega
        · have := (List.pairwise_cons.1 h2).1 n hn; omega
    · simp only [iframeMap, List.find?_cons, hk, decide_false] at he
      obtain ⟨g1, g2, g3⟩ := ih m h2 k e he
      refine ⟨List.mem_cons_of_mem _ g1, ?_, ?_⟩
      · left; rcases g2 with g2 | g2 <;> omega
      · intro n hn hnk
        rcases List.mem_cons.1 hn with rfl | hn
        · have := g3 m (by simp) (by omega); omega
        · exact g3 n hn hnk

/-- the sync sample found for a sample: the last one not after it, or the first one -/
theorem iframe_get (prev : Nat) (ns : List Nat) (h : (prev :: ns).Pairwise (· < ·)) (k : Nat) :
    ∃ v, (Verif.RangeMap.get (iframeMap prev ns) k).map (·.2.2) = some v ∧ v ∈ prev :: ns ∧ (v ≤ k ∨ v = prev) ∧
      ∀ n ∈ prev :: ns, n ≤ k → n ≤ v := by
  obtain ⟨a, ha⟩ : ∃ a, (iframeMap prev ns).head? = some a := by
    cases hh : (iframeMap prev ns).head? with
    | none => exact absurd (by simpa using hh) (iframeMap_ne prev ns)
    | some a => exact ⟨a, rfl⟩
  have hz := iframeMap_last prev ns
  rw [range_map_first _ k (iframeMap_sorted ns prev h) a _ ha hz]
  have hfind : k ≤ a.1 → (iframeMap prev ns).find? (fun e => decide (k ≤ e.1)) = some a := by
    intro hk
    cases hm : iframeMap prev ns with
    | nil => rw [hm] at ha; simp at ha
    | cons x xs => rw [hm] at ha; simp at ha; subst ha; simp [List.find?_cons, hk]
  split
  · rename_i hlt
    obtain ⟨g1, g2, g3⟩ := iframe_find_last ns prev h k a (hfind (by omega))
    exact ⟨a.2, rfl, g1, g2, g3⟩
  · split
    · rename_i hlt
      refine ⟨_, rfl, List.getLast_mem _, .inl (by simp only at hlt ⊢; omega), ?_⟩
      intro n hn _
      exact le_getLast _ h (by simp) n hn
    · rename_i h1 h2
      cases hf : (iframeMap prev ns).find? (fun e => decide (k ≤ e.1)) with
      | none =>
        exfalso
        rw [List.find?_eq_none] at hf
        have := hf _ (List.mem_of_getLast? hz)
        simp at this; omega
      | some e =>
        obtain ⟨g1, g2, g3⟩ := iframe_find_last ns prev h k e hf
        exact ⟨e.2, rfl, g1, g2, g3⟩

theorem synced_map {b : TrackBoxes} {t : Track} {es : List (Nat × Nat)} {ns : List Nat} (h : Timed b t es)
    (hs : Synced b ns) : ∃ p ns', ns = p :: ns' ∧ t.iframes = iframeMap p ns' ∧ t.hasStss = true ∧
      ∀ n, isIFrame t.iframes n = some (decide (n ∈ ns)) := by
  obtain ⟨d, c, f, _, _, h3, _, _, _, _, h8, h9, _⟩ := openTrack_fields h.opened
  obtain ⟨p, ns', rfl⟩ := List.exists_cons_of_ne_nil hs.ne
  obtain ⟨m, m1, m2⟩ := stss_read (p :: ns') (by simp) hs.sorted hs.u32 []
  have hm : m = f := by
    rw [hs.stss] at h3
    simp only [openStss] at h3
    rw [List.append_nil, h3] at m1
    exact (Option.some.inj m1).symm
  subst hm
  refine ⟨p, ns', rfl, ?_, by rw [h8, hs.stss]; rfl, by rw [h9]; exact m2⟩
  have hf := stss_fold ns' 1 p [] (by omega) hs.sorted hs.u32
  rw [h9]
  rw [hs.stss] at h3
  simp only [openStss, parseStss] at h3
  rw [if_pos (by simp)] at h3
  have hp := hs.u32 p (by simp)
  have hsub : sub32 (p + 1) 1 = p := by
    simp only [sub32]
    rw [show p + 1 + 2 ^ 32 - 1 = p + 2 ^ 32 by omega, Nat.add_mod_right, Nat.mod_eq_of_lt (by omega)]
  rw [show (p :: ns').length = ((p :: ns').map (· + 1)).length by simp, List.take_length] at h3
  simp only [List.map_cons, List.foldl_cons, stssRdStep, hsub, Nat.lt_irrefl, if_false, Nat.zero_add] at h3
  simp only [List.nil_append] at hf
  rw [hf] at h3
  exact (Option.some.inj h3).symm

theorem cttsInner_decoding (o : Nat) : ∀ (k : Nat) (s s' : CttsRd), cttsInner o k s = some s' →
    s'.comps.map (·.decoding) = s.comps.map (·.decoding) := by
  intro k
  induction k with
  | zero => intro s s' h; simp [cttsInner] at h; rw [h]
  | succ k ih =>
    intro s s' h
    rw [cttsInner] at h
    split at h
    · rename_i c hc
      split at h
      · simp at h
      · rw [ih _ _ h]
        simp only [List.map_set]
        apply List.ext_getElem?
        intro i
        rw [List.getElem?_set]
        split
        · rename_i hi
          subst hi
          have hlt := (List.getElem?_eq_some_iff.1 hc).1
          simp [hlt, (List.getElem?_eq_some_iff.1 hc).2]
        · rfl
    · exact (ih { s with n := s.n + 1 } _ h).trans rfl

theorem cttsOuter_decoding : ∀ (es : List (Nat × Nat)) (s s' : CttsRd), cttsOuter es s = some s' →
    s'.comps.map (·.decoding) = s.comps.map (·.decoding) := by
  intro es
  induction es with
  | nil => intro s s' h; simp [cttsOuter] at h; rw [h]
  | cons e es ih =>
    intro s s' h
    obtain ⟨k, o⟩ := e
    rw [cttsOuter] at h
    split at h
    · simp at h
    · rename_i s1 h1
      rw [ih _ _ h, cttsInner_decoding o k s s1 h1]

/-- decoding times of the samples of an opened track -/
theorem timed_decoding {b : TrackBoxes} {t : Track} {es : List (Nat × Nat)} (h : Timed b t es) (i : Nat)
    (hi : i < (expand es).length) : decodingTime t.comps i = some (startOf (expand es) i) := by
  obtain ⟨d, c, f, h1, h2, _, h4, h5, h6, _⟩ := openTrack_fields h.opened
  obtain ⟨s, p1, p2, _⟩ := parse_stts_eq es []
  rw [show pairWords es ++ [] = b.stts by rw [h.stts, pairWords, List.append_nil], h1] at p1
  simp at p1; subst p1
  have hmap : t.comps.map (·.decoding) = d.comps.map (·.decoding) := by
    rw [h6]
    cases hc : b.ctts with
    | none => rw [hc] at h2; simp [openCtts] at h2; subst h2; rfl
    | some w =>
      rw [hc] at h2
      simp only [openCtts, Option.map_eq_some_iff] at h2
      obtain ⟨s, hs, rfl⟩ := h2
      simp only [parseCtts] at hs
      split at hs
      · simp at hs
      · split at hs
        · simp at hs
        · have := cttsOuter_decoding _ _ _ hs
          simpa using this
  have : (t.comps.map (·.decoding))[i]? = some (startOf (expand es) i) := by
    rw [hmap, p2]
    simp [compsOf_get, List.getElem?_eq_getElem hi]
  simpa [decodingTime] using this

/-- where a move in a track with a sync table ends: not after the last sync sample decoded by that time (or the first
sync sample) -/
theorem move_sync {b : TrackBoxes} {t : Track} {es : List (Nat × Nat)} {ns : List Nat} (hb : Timed b t es)
    (hs : Synced b ns) {xs : List Sample} (hold : Holds t xs) (time p : Nat) :
    ∃ J x m, leadSample t time = some J ∧ J ∈ ns ∧ xs[J]? = some x ∧ x.sync = true ∧
      (x.decoding ≤ time ∨ ∀ n ∈ ns, J ≤ n) ∧
      (∀ n, n ∈ ns → J < n → raw time t.scale < startOf (expand es) n) ∧
      (∀ c, moveStream x.decoding c t p = some m) ∧ m ≤ J ∧
      (10000000 % t.scale = 0 → m = J) := by
  obtain ⟨hdec, hcount, hscale, hlen⟩ := timed_dec hb
  obtain ⟨q, ns', rfl, hmap, hst, hif⟩ := synced_map hb hs
  obtain ⟨_, _, _, _, _, _, hsm, _, _, _, _, _, _, _, _, _, _⟩ := openTrack_fields hb.opened
  have hfits := hb.fits
  have hspos : 0 < t.scale := hscale ▸ hb.scale
  obtain ⟨k, hk, hkiff⟩ := decoding_number es hb.ne hb.pos (raw time t.scale) (by omega) (raw_lt _ _)
  obtain ⟨J, hJ, hJmem, hJle, hJmax⟩ := iframe_get q ns' hs.sorted k
  have hin : ∀ n ∈ q :: ns', n < (expand es).length := by
    intro n hn; have := hs.inside n hn; rw [hb.count] at this; exact this
  have hxl : xs.length = (expand es).length := by rw [← holds_count hold, hcount]
  have hJl := hin J hJmem
  have hJx := List.getElem?_eq_getElem (l := xs) (i := J) (by omega)
  obtain ⟨⟨c, c1, c2⟩, hsync⟩ := holds_dec hold J _ hJx
  rw [timed_decoding hb J hJl] at c1
  simp at c1; subst c1
  have hle := startOf_le_sum (expand es) J
  have hf : 10000000 * startOf (expand es) J < 2 ^ 64 := by omega
  have hrawle := raw_hns_le _ t.scale hf
  obtain ⟨m, hm, hmiff⟩ := decoding_number es hb.ne hb.pos (raw (hns (startOf (expand es) J) t.scale) t.scale)
    (by omega) (raw_lt _ _)
  have hp := expand_pos hb.pos
  have hmJ : m ≤ J := by
    by_contra hcon
    by_cases hl : J + 1 < (expand es).length
    · have h1 := (hmiff (J + 1) hl).2 (by omega)
      have h2 := startOf_lt (expand es) hp (J + 1) J (by omega) (by omega)
      omega
    · -- J is the last sample: the number found is at most J, as the time is before the end
      have : startOf (expand es) J < (expand es).sum := by
        have h2 := startOf_lt (expand es) hp (expand es).length J (by omega) (Nat.le_refl _)
        simpa [startOf] using h2
      obtain ⟨s, n', g1, g2, g3, _⟩ := decoding_sample_read es hb.pos (raw (hns (startOf (expand es) J) t.scale) t.scale)
        (by omega) (by omega) []
      obtain ⟨s', p1, _, p3⟩ := parse_stts_eq es []
      rw [p1] at g1; simp at g1; subst g1
      rw [p3, hm] at g2
      simp at g2; omega
  refine ⟨J, _, m, ?_, hJmem, hJx, ?_, ?_, ?_, ?_, hmJ, ?_⟩
  · simp [leadSample, Track.iframeNumber, hst, hdec, hk, hmap, hJ]
  · have h1 := hif J
    rw [hsync] at h1
    rw [Option.some.inj h1]
    exact decide_eq_true hJmem
  · rcases hJle with h | h
    · left
      rw [c2]
      exact hns_le_of_le_raw _ _ _ hspos hf ((hkiff J hJl).2 h)
    · right
      intro n hn
      subst h
      rcases List.mem_cons.1 hn with rfl | hn
      · exact Nat.le_refl _
      · exact Nat.le_of_lt ((List.pairwise_cons.1 hs.sorted).1 n hn)
  · intro n hn hlt
    by_contra hcon
    have := (hkiff n (hin n hn)).1 (by omega)
    have := hJmax n hn this
    omega
  · intro c
    rw [moveStream, if_neg (show ¬ t.count = 0 by omega), if_neg (by simp [hst]), hdec, c2]
    exact hm
  · intro hdiv
    obtain ⟨q, hq⟩ := Nat.dvd_of_mod_eq_zero hdiv
    have hh : raw (hns (startOf (expand es) J) t.scale) t.scale = startOf (expand es) J := by
      rw [hns_eq _ _ hf, raw]
      have e1 : 10000000 * startOf (expand es) J / t.scale = q * startOf (expand es) J := by
        rw [hq, Nat.mul_assoc, Nat.mul_div_cancel_left _ hspos]
      have e2 : q * startOf (expand es) J * t.scale = 10000000 * startOf (expand es) J := by
        rw [hq]; ac_rfl
      rw [e1, e2, Nat.mod_eq_of_lt hf, Nat.mul_div_cancel_left _ (by decide)]
    have := (hmiff J hJl).1 (Nat.le_of_eq hh.symm)
    omega

/-- C45. For every file and every track with a sync table and no edit list, and for every `start` at which a group of
pictures begins - a sync sample `J` before which everything is presented before `start`, with the next sync sample
decoded after `start` - and every `stop` that separates the samples: the fragment holds exactly the samples presented
from `start` on and before `stop`, once each and in order. (The restrictions on `start` and `stop` and the edit list
are what is missing; decoding times may be shifted when the composition offset is constant.) -/
theorem fragment_video_partial (r : Reader) (xss : List (List Sample)) (h : FileHolds r xss) (ht : HasTimes r)
    (hin : Inside xss r.mdatEnd) (hmax : r.mdatEnd < 2 ^ 64 - 1) (id : Nat) (b : TrackBoxes) (t : Track) (p : Nat)
    (es : List (Nat × Nat)) (hb : Timed b t es) (ns : List Nat) (hs : Synced b ns) (helst : b.elst = 0)
    (hid : r.streams[id]? = some (t, p)) (xs : List Sample) (hxs : xss[id]? = some xs)
    (hfit : ∀ x ∈ xs, pres t x < 2 ^ 64) (start stop : Nat) (base : Option Nat)
    (J : Nat) (hJ : ∃ x, xs[J]? = some x ∧ x.sync = true)
    (hbefore : ∀ i x, i < J → xs[i]? = some x → x.composition < start)
    (hnext : ∀ n y, J < n → xs[n]? = some y → y.sync = true → start < y.decoding)
    (hstop : Separates t stop xs) :
    ∃ out dec, addFrames r id start stop base = some (out, dec) ∧
      out.map noDecoding = (window t start stop xs).map noDecoding ∧
      (t.cttsCount ≠ 1 → out = window t start stop xs) := by
  obtain ⟨a, ha, hold⟩ := forall₂_get h id xs hxs
  rw [hid] at ha; simp at ha; subst ha
  obtain ⟨_, _, _, _, hif⟩ := synced_map hb hs
  obtain ⟨_, _, _, _, _, _, _, _, _, _, _, _, _, hel, _⟩ := openTrack_fields hb.opened
  have hoff : t.offset = 0 := by simp [Track.offset, hel, helst, hns]
  obtain ⟨K, x, m, k1, k2, k3, k4, k5, k6, k7, k8, _⟩ := move_sync hb hs hold start p
  have hKJ : K ≤ J := by
    by_contra hcon
    rcases k5 with k5 | k5
    · have := hnext K x (by omega) k3 k4; omega
    · obtain ⟨y, hy1, hy2⟩ := hJ
      obtain ⟨_, hy3⟩ := holds_dec hold J y hy1
      rw [hif.2 J, hy2] at hy3
      have := k5 J (by simpa using hy3)
      omega
  have := addFrames_from r xss h ht hin hmax id t p hid xs hxs hfit start stop base K x k1 k3 m (k7 _)
  simp only at this
  rw [take_filter_window t start stop _ (separates_drop hstop m),
    window_drop t start stop m xs (fun i x hi hx => by
      have := hbefore i x (by omega) hx; simp only [pres, hoff]; omega)] at this
  refine ⟨_, _, this, ?_, ?_⟩
  · rw [List.map_map]
    apply List.map_congr_left
    intro y _
    simp only [Function.comp, toAdded]
    split <;> rfl
  · intro hc
    have : toAdded t = fun x => x := by funext x; simp [toAdded, hc]
    rw [this, List.map_id']

/-! ### adjacent fragments -/

theorem window_append (t : Track) (a b c : Nat) (hab : a ≤ b) (hbc : b ≤ c) : ∀ (xs : List Sample), Separates t b xs →
    window t a b xs ++ window t b c xs = window t a c xs := by
  intro xs
  induction xs with
  | nil => intro _; rfl
  | cons x xs ih =>
    intro h
    obtain ⟨h1, h2⟩ := List.pairwise_cons.1 h
    have hi := ih h2
    simp only [window] at hi
    by_cases hx : pres t x < b
    · have e1 : ¬ (b ≤ pres t x ∧ pres t x < c) := by omega
      have e2 : (a ≤ pres t x ∧ pres t x < b) ↔ (a ≤ pres t x ∧ pres t x < c) := by omega
      simp only [window, List.filter_cons, e1, decide_false, e2, Bool.false_eq_true, if_false]
      split
      · rw [List.cons_append, hi]
      · exact hi
    · have e0 : xs.filter (fun x => decide (a ≤ pres t x ∧ pres t x < b)) = [] := by
        rw [List.filter_eq_nil_iff]
        intro y hy
        have := h1 y hy (by omega)
        simp; omega
      rw [e0, List.nil_append] at hi
      have e1 : ¬ (a ≤ pres t x ∧ pres t x < b) := by omega
      have e2 : (b ≤ pres t x ∧ pres t x < c) ↔ (a ≤ pres t x ∧ pres t x < c) := by omega
      simp only [window, List.filter_cons, e1, decide_false, e2, Bool.false_eq_true, if_false, e0, List.nil_append]
      rw [hi]

theorem cutAll_window (r : Reader) (id : Nat) (t : Track) (xs : List Sample) : ∀ (times : List Nat) (a : Nat),
    (a :: times).Pairwise (· ≤ ·) → (∀ x ∈ a :: times, Separates t x xs) →
    (∀ x ∈ a :: times, ∀ y ∈ a :: times, ∃ dec, addFrames r id x y none = some (window t x y xs, dec)) →
    cutAll r id (a :: times) = some (window t a ((a :: times).getLast (by simp)) xs) := by
  intro times
  induction times with
  | nil =>
    intro a _ _ _
    simp only [cutAll, List.getLast_singleton, window]
    symm
    congr 1
    rw [List.filter_eq_nil_iff]
    intro y _ hc
    have := of_decide_eq_true hc
    omega
  | cons b times ih =>
    intro a hs hsep hcut
    obtain ⟨h1, h2⟩ := List.pairwise_cons.1 hs
    obtain ⟨dec, hd⟩ := hcut a (by simp) b (by simp)
    have hi := ih b h2 (fun x hx => hsep x (by simp [hx]))
      (fun x hx y hy => hcut x (List.mem_cons_of_mem _ hx) y (List.mem_cons_of_mem _ hy))
    simp only [cutAll, hd, hi]
    rw [List.getLast_cons (a := a) (show b :: times ≠ [] by simp)]
    congr 1
    apply window_append t a b _ (h1 b (by simp))
    · rcases List.mem_cons.1 (List.getLast_mem (l := b :: times) (by simp)) with h | h
      · exact Nat.le_of_eq h.symm
      · exact (List.pairwise_cons.1 h2).1 _ h
    · exact hsep b (by simp)

/-- C45. For every audio track (as above) and every increasing list of times: the fragments cut between neighbouring
times, put one after the other, are the samples presented from the first time on and before the last, none missing and
none twice. -/
theorem fragments_partition_audio (r : Reader) (xss : List (List Sample)) (h : FileHolds r xss) (ht : HasTimes r)
    (hin : Inside xss r.mdatEnd) (hmax : r.mdatEnd < 2 ^ 64 - 1) (id : Nat) (b : TrackBoxes) (t : Track) (p : Nat)
    (es : List (Nat × Nat)) (hb : Timed b t es) (hctts : b.ctts = none) (hstss : b.stss = none)
    (hid : r.streams[id]? = some (t, p)) (xs : List Sample) (hxs : xss[id]? = some xs)
    (hfit : ∀ x ∈ xs, pres t x < 2 ^ 64) (a : Nat) (times : List Nat) (hsorted : (a :: times).Pairwise (· ≤ ·))
    (h64 : ∀ x ∈ a :: times, x < 2 ^ 64) :
    cutAll r id (a :: times) = some (window t a ((a :: times).getLast (by simp)) xs) := by
  obtain ⟨s, hs, hold⟩ := forall₂_get h id xs hxs
  rw [hid] at hs; simp at hs; subst hs
  exact cutAll_window r id t xs times a hsorted (fun x _ => plain_separates hb hctts hold x)
    (fun x hx y _ => fragment_audio r xss h ht hin hmax id b t p es hb hctts hstss hid xs hxs hfit x y (h64 x hx) none)

theorem gop_separates {t : Track} {xs : List Sample} {time : Nat} (h : GopStart t xs time) : Separates t time xs := by
  obtain ⟨J, x, _, _, _, h4, h5, _⟩ := h
  rw [Separates, List.pairwise_iff_getElem]
  intro i j hi hj hij hle
  by_cases hiJ : i < J
  · have := h4 i _ hiJ (List.getElem?_eq_getElem hi); omega
  · exact h5 j _ (by omega) (List.getElem?_eq_getElem hj)

/-- C45. For every video track without edit list and every increasing list of beginnings of closed groups of pictures:
the fragments cut between neighbouring times, put one after the other, are the samples presented from the first time on
and before the last, none missing and none twice. (Open groups, close sync samples and edit lists are missing.) -/
theorem fragments_partition_video_partial (r : Reader) (xss : List (List Sample)) (h : FileHolds r xss) (ht : HasTimes r)
    (hin : Inside xss r.mdatEnd) (hmax : r.mdatEnd < 2 ^ 64 - 1) (id : Nat) (b : TrackBoxes) (t : Track) (p : Nat)
    (es : List (Nat × Nat)) (hb : Timed b t es) (ns : List Nat) (hs : Synced b ns) (helst : b.elst = 0)
    (hcount : t.cttsCount ≠ 1)
    (hid : r.streams[id]? = some (t, p)) (xs : List Sample) (hxs : xss[id]? = some xs)
    (hfit : ∀ x ∈ xs, pres t x < 2 ^ 64) (a : Nat) (times : List Nat) (hsorted : (a :: times).Pairwise (· ≤ ·))
    (hgop : ∀ x ∈ a :: times, GopStart t xs x) :
    cutAll r id (a :: times) = some (window t a ((a :: times).getLast (by simp)) xs) := by
  obtain ⟨_, _, _, _, _, _, _, _, _, _, _, _, _, hel, _⟩ := openTrack_fields hb.opened
  have hoff : t.offset = 0 := by simp [Track.offset, hel, helst, hns]
  refine cutAll_window r id t xs times a hsorted (fun x hx => gop_separates (hgop x hx)) ?_
  intro x hx y hy
  obtain ⟨J, z, h1, h2, h3, h4, h5, h6⟩ := hgop x hx
  obtain ⟨out, dec, e1, _, e3⟩ := fragment_video_partial r xss h ht hin hmax id b t p es hb ns hs helst hid xs hxs hfit x y none
    J ⟨z, h1, h2⟩ (fun i w hi hw => by have := h4 i w hi hw; simp only [pres] at this; omega) h6 (gop_separates (hgop y hy))
  rw [e3 hcount] at e1
  exact ⟨dec, e1⟩

/-! ### C92: base media decode time -/

theorem framesLoop_base (t : Track) (id start stop : Nat) (base : Option Nat) :
    ∀ (fuel : Nat) (r : Reader) (set : Option Nat) (out : List Sample) (dec : Option Nat),
    framesLoop t id start stop base fuel r set = some (out, dec) → dec = setBase start base set out := by
  intro fuel
  induction fuel with
  | zero => intro r set out dec h; simp [framesLoop] at h; obtain ⟨rfl, rfl⟩ := h; cases set <;> rfl
  | succ fuel ih =>
    intro r set out dec h
    rw [framesLoop] at h
    split at h
    · simp at h
    · simp at h; obtain ⟨rfl, rfl⟩ := h; cases set <;> rfl
    · simp at h
    · split at h
      · exact ih _ _ _ _ h
      · split at h
        · simp at h; obtain ⟨rfl, rfl⟩ := h; cases set <;> rfl
        · split at h
          · exact ih _ _ _ _ h
          · simp only [Option.map_eq_some_iff] at h
            obtain ⟨⟨o, d⟩, h1, h2⟩ := h
            have := ih _ _ _ _ h1
            simp only [Prod.mk.injEq] at h2
            obtain ⟨rfl, rfl⟩ := h2
            cases set <;> simpa [setBase] using this

/-- C92. For every file, track and pair of times: a fragment with samples has a base media decode time, and it is the
time given (or `start`) less the composition offset of its first sample. -/
theorem base_time_set (r : Reader) (id start stop : Nat) (base : Option Nat) (out : List Sample) (dec : Option Nat)
    (h : addFrames r id start stop base = some (out, dec)) (a : Sample) (ha : out.head? = some a)
    (hle : a.decoding ≤ a.composition) (hbase : a.composition - a.decoding ≤ base.getD start)
    (h64 : base.getD start < 2 ^ 64) :
    dec = some (base.getD start - (a.composition - a.decoding)) := by
  simp only [addFrames] at h
  split at h
  · simp at h
  · split at h
    · simp at h
    · have := framesLoop_base _ _ _ _ _ _ _ _ _ _ h
      rw [this]
      simp only [setBase, ha, Option.map_some, baseTime, sub64]
      rw [show a.composition + 2 ^ 64 - a.decoding = (a.composition - a.decoding) + 2 ^ 64 by omega, Nat.add_mod_right,
        Nat.mod_eq_of_lt (show a.composition - a.decoding < 2 ^ 64 by omega)]
      rw [show base.getD start + 2 ^ 64 - (a.composition - a.decoding) =
        (base.getD start - (a.composition - a.decoding)) + 2 ^ 64 by omega, Nat.add_mod_right, Nat.mod_eq_of_lt (by omega)]

/-- C92. If the time is the presentation time of the first sample, the base media decode time is that sample's decoding
time on the time line of the track (moved by the track's offset). (That assumption is what is missing.) -/
theorem base_time_partial (r : Reader) (id start stop : Nat) (base : Option Nat) (out : List Sample) (dec : Option Nat)
    (h : addFrames r id start stop base = some (out, dec)) (a : Sample) (ha : out.head? = some a)
    (hle : a.decoding ≤ a.composition) (offset : Nat) (hfirst : base.getD start = a.composition + offset)
    (h64 : a.composition + offset < 2 ^ 64) : dec = some (a.decoding + offset) := by
  rw [base_time_set r id start stop base out dec h a ha hle (by omega) (by omega)]
  congr 1
  omega

end Verif.Reader

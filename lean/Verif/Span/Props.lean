import Verif.Span.Model
import Verif.Span.Spec
import Verif.Tables.PropsOrder
import Verif.Reader.PropsFrames
/-
C159: the times shown for a stream; C160: the decoding times of a stream.
-/
namespace Verif.Span
open Verif.Reader.Spec (Timed)
open Verif.Reader (Track TrackBoxes hns hns_eq openTrack openTrack_fields timed_dec timed_comps openCtts startOf_le)
open Verif.Tables
open Verif.Tables.Spec (expand)
open Spec

/-! ### The order of presentation -/

/-- The insertion reads before the first element when everything is later. -/
theorem orderedScan_none (t : Nat) (comp : List (Nat × Nat)) (h : ∀ c ∈ comp, t < c.1) : ∀ (idx : Nat) (stack : List (Nat × Nat)), orderedScan t comp idx stack = none
  | 0, _ => rfl
  | idx + 1, stack => by
    rw [orderedScan]
    cases hc : comp[idx]? with
    | none => rfl
    | some c =>
      simp only [h c (List.mem_of_getElem? hc), if_true]
      exact orderedScan_none t comp h idx _

/-- A composition table can be read only if no sample is shown before the first one. -/
theorem first_of_read (D : List Nat) : ∀ (os P : List Nat) (s s' : CttsRd), P.length + os.length ≤ D.length → s.n = P.length →
    s.comps = D.mapIdx (fun i d => ⟨startOf D i, P.getD i 0, d⟩) → s.ordered.Pairwise (fun a b => a.1 ≤ b.1) → s.ordered.Perm ((List.range P.length).map (fun i => (compTime D P i, i))) →
    (∀ i, i < P.length → compTime D P 0 ≤ compTime D P i) → cttsFlat os s = some s' → ∀ i, i < (P ++ os).length → compTime D (P ++ os) 0 ≤ compTime D (P ++ os) i := by
  intro os
  induction os with
  | nil => intro P s s' _ _ _ _ _ h _ i hi; simpa using h i (by simpa using hi)
  | cons o os ih =>
    intro P s s' hlen h2 h3 h4 h5 h6 hr
    simp only [List.length_cons] at hlen
    have hPl : P.length < D.length := by omega
    have hext : ∀ i, i < P.length → compTime D (P ++ [o]) i = compTime D P i := by
      intro i hi
      simp [compTime, List.getD_eq_getElem?_getD, List.getElem?_append_left hi]
    have hnew : compTime D (P ++ [o]) P.length = startOf D P.length + o := by simp [compTime, List.getD_eq_getElem?_getD]
    have hnext : ∀ i, i < (P ++ [o]).length → compTime D (P ++ [o]) 0 ≤ compTime D (P ++ [o]) i := by
      intro i hi
      by_cases hP : P.length = 0
      · have : i = 0 := by simp at hi; omega
        rw [this]
      · rw [hext 0 (by omega)]
        by_cases hi' : i < P.length
        · rw [hext i hi']; exact h6 i hi'
        · have : i = P.length := by simp at hi; omega
          rw [this, hnew]
          by_contra hlt
          have hdec : s.comps[s.n]? = some ⟨startOf D P.length, P.getD P.length 0, D[P.length]⟩ := by rw [h3, h2, List.getElem?_mapIdx, List.getElem?_eq_getElem hPl]; rfl
          have hall : ∀ c ∈ s.ordered, startOf D P.length + o < c.1 := by
            intro c hc
            obtain ⟨k, hk, rfl⟩ := List.mem_map.mp (h5.mem_iff.mp hc)
            have := h6 k (List.mem_range.mp hk)
            show _ < compTime D P k
            omega
          have hne : ¬ s.ordered.length = 0 := by rw [h5.length_eq]; simpa using hP
          have : cttsInner o 1 s = none := by
            simp only [cttsInner, hdec, addOrdered, hne, if_false, orderedScan_none _ _ hall]
          rw [cttsFlat, this] at hr
          cases hr
    rw [cttsFlat] at hr
    cases hs : cttsInner o 1 s with
    | none => rw [hs] at hr; cases hr
    | some s1 =>
      rw [hs] at hr
      obtain ⟨s2, b1, b2, b3, b4⟩ := ctts_flat_inv D [o] P s (by simp; omega) h2 h3 h4 h5 hnext
      have e : s1 = s2 := by
        rw [cttsFlat, hs] at b1
        simpa [cttsFlat] using b1
      subst e
      have hn : s1.n = (P ++ [o]).length := by
        have hdec : s.comps[s.n]? = some ⟨startOf D P.length, P.getD P.length 0, D[P.length]⟩ := by rw [h3, h2, List.getElem?_mapIdx, List.getElem?_eq_getElem hPl]; rfl
        simp only [cttsInner, hdec] at hs
        cases ho : addOrdered s.ordered (startOf D P.length + o, s.n) with
        | none => rw [ho] at hs; cases hs
        | some l => rw [ho] at hs; simp only [Option.some.injEq] at hs; rw [← hs]; simp [h2]
      have := ih (P ++ [o]) s1 s' (by simp; omega) hn b2 b3 b4 hnext hr
      simpa using this

/-- C58, C159: a track with a composition offset for each sample can be opened if and only if no sample is shown before the first one. -/
theorem ctts_read_iff (es cs : List (Nat × Nat)) (rest rest' : List Nat) (hlen : (expand cs).length = (expand es).length) :
    (∃ d s, parseStts (pairWords es ++ rest) = some d ∧ parseCtts d.comps (pairWords cs ++ rest') = some s) ↔
      ∀ i, i < (expand es).length → shown (expand es) (expand cs) 0 ≤ shown (expand es) (expand cs) i := by
  constructor
  · rintro ⟨d, s, h1, h2⟩
    obtain ⟨d', e1, e2, -⟩ := parse_stts_eq es rest
    rw [h1] at e1
    obtain rfl : d = d' := Option.some.inj e1
    simp only [parseCtts, pairWords, List.cons_append] at h2
    rw [pairs_words] at h2
    simp only [cttsOuter_flat] at h2
    have := first_of_read (expand es) (expand cs) [] { comps := d.comps } s (by simp [hlen]) rfl (by simp [e2, compsOf]) (by simp) (by simp) (by simp) h2
    intro i hi
    exact this i (by simpa [hlen] using hi)
  · intro h
    obtain ⟨d, s, h1, h2, -⟩ := ctts_read_partial es cs rest rest' hlen h
    exact ⟨d, s, h1, h2⟩

example : ¬ ∀ i, i < (expand [(3, 40)]).length → shown (expand [(3, 40)]) (expand [(1, 100), (2, 0)]) 0 ≤ shown (expand [(3, 40)]) (expand [(1, 100), (2, 0)]) i := by decide

/-! ### Without offsets -/

theorem startLoop_same (t : Track) (x : Nat) : ∀ (n idx : Nat), (∀ i, idx ≤ i → i < idx + n → ∃ y, compositionTime t.comps i = some y ∧ x ≤ y) → startLoop t n idx x = some x
  | 0, _, _ => rfl
  | n + 1, idx, h => by
    obtain ⟨y, h1, h2⟩ := h idx (by omega) (by omega)
    rw [startLoop, h1]
    simp only [show ¬ y < x by omega, if_false]
    exact startLoop_same t x n (idx + 1) fun i a b => h i (by omega) (by omega)

theorem endLoop_same (t : Track) (x : Nat) : ∀ (n idx : Nat), n ≤ idx → (∀ i, i ≤ idx → idx < i + n → ∃ y, compositionTime t.comps i = some y ∧ y ≤ x) → endLoop t n idx x = some x
  | 0, _, _, _ => rfl
  | n + 1, idx, hn, h => by
    obtain ⟨y, h1, h2⟩ := h idx (by omega) (by omega)
    rw [endLoop, h1]
    simp only [show ¬ y > x by omega, if_false]
    exact endLoop_same t x n (idx - 1) (by omega) fun i a b => h i (by omega) (by omega)

/-! ### With offsets -/

theorem with_offsets {b : TrackBoxes} {t : Track} {es : List (Nat × Nat)} (h : Timed b t es) (cs : List (Nat × Nat)) (hc : b.ctts = some (cs.length :: cs.flatMap fun e => [e.1, e.2]))
    (hlen : (expand cs).length = (expand es).length) :
    t.hasCtts = true ∧ t.ordered.Pairwise (fun a b => a.1 ≤ b.1) ∧ t.ordered.Perm ((List.range (expand es).length).map fun i => (shown (expand es) (expand cs) i, i)) ∧
      t.comps = (expand es).mapIdx fun i d => ⟨startOf (expand es) i, (expand cs).getD i 0, d⟩ := by
  have ho := h.opened
  simp only [openTrack, Option.bind_eq_bind, Option.bind_eq_some_iff, Option.pure_def, Option.some.injEq] at ho
  obtain ⟨d, h1, c, h2, f, h3, rfl⟩ := ho
  rw [hc, openCtts] at h2
  obtain ⟨s, hs, rfl⟩ := Option.map_eq_some_iff.mp h2
  have hp : parseStts (pairWords es ++ []) = some d := by rw [List.append_nil, pairWords, ← h.stts]; exact h1
  have hs' : parseCtts d.comps (pairWords cs ++ []) = some s := by rw [List.append_nil, pairWords]; exact hs
  have hfirst := (ctts_read_iff es cs [] [] hlen).mp ⟨d, s, hp, hs'⟩
  obtain ⟨d', e1, e2, -⟩ := parse_stts_eq es []
  rw [hp] at e1
  obtain rfl : d = d' := Option.some.inj e1
  obtain ⟨s', b1, b2, b3, b4⟩ := ctts_flat_inv (expand es) (expand cs) [] { comps := d.comps } (by simp [hlen]) rfl (by simp [e2, compsOf]) (by simp) (by simp) (by intro i hi; exact hfirst i (by simpa [hlen] using hi))
  simp only [parseCtts, pairWords, List.cons_append] at hs'
  rw [pairs_words] at hs'
  simp only [cttsOuter_flat] at hs'
  rw [b1] at hs'
  obtain rfl : s' = s := Option.some.inj hs'
  refine ⟨by rw [hc]; rfl, b3, ?_, by simpa using b2⟩
  rw [← hlen]
  exact b4

theorem sorted_first {l : List (Nat × Nat)} (h : l.Pairwise (fun a b => a.1 ≤ b.1)) (c : Nat × Nat) (hc : l[0]? = some c) : ∀ x ∈ l, c.1 ≤ x.1 := by
  cases l with
  | nil => cases hc
  | cons a l =>
    simp only [List.getElem?_cons_zero, Option.some.injEq] at hc
    subst hc
    intro x hx
    rcases List.mem_cons.mp hx with rfl | hx
    · exact Nat.le_refl _
    · exact (List.pairwise_cons.mp h).1 x hx

theorem sorted_last {l : List (Nat × Nat)} (h : l.Pairwise (fun a b => a.1 ≤ b.1)) (c : Nat × Nat) (hc : l[l.length - 1]? = some c) : ∀ x ∈ l, x.1 ≤ c.1 := by
  intro x hx
  obtain ⟨i, hi, rfl⟩ := List.mem_iff_getElem.mp hx
  obtain ⟨hl, rfl⟩ := List.getElem?_eq_some_iff.mp hc
  by_cases he : i = l.length - 1
  · subst he; exact Nat.le_refl _
  · exact List.pairwise_iff_getElem.mp h i (l.length - 1) hi hl (by omega)

/-- C159, in the units of the media. -/
theorem raw_times {b : TrackBoxes} {t : Track} {es : List (Nat × Nat)} (h : Timed b t es) (os : List Nat) (ho : HasOffsets b es os)
    (hfit : ∀ i, (hi : i < (expand es).length) → shown (expand es) os i + (expand es)[i] < 2 ^ 64) :
    ∃ first last fin, Span (expand es) os first last fin ∧ startRaw t = some first ∧ endRaw t = some last ∧ endPlusRaw t = some fin := by
  obtain ⟨-, hcount, -, hpos⟩ := timed_dec h
  rcases ho with ⟨hc, rfl⟩ | ⟨cs, hc, rfl, hlen⟩
  · obtain ⟨hcomps, hhas, -⟩ := timed_comps h hc
    have hcomp : ∀ i, i < (expand es).length → compositionTime t.comps i = some (startOf (expand es) i) := by
      intro i hi
      rw [compositionTime, hcomps, compsOf_get, List.getElem?_eq_getElem hi]
      simp
    have hshown : ∀ i, shown (expand es) [] i = startOf (expand es) i := fun i => by simp [shown, startOf]
    have hmono : ∀ i j, i ≤ j → j < (expand es).length → startOf (expand es) i ≤ startOf (expand es) j := fun i j hij hj =>
      startOf_le (expand es) (Verif.Reader.expand_pos h.pos) i j hij (by omega)
    have hstart : startRaw t = some (startOf (expand es) 0) := by
      rw [startRaw, if_neg (by rw [hhas]; decide), hcomp 0 hpos]
      exact startLoop_same t _ _ 1 fun i a c => by
        have hi : i < (expand es).length := by rw [hcount] at c; split at c <;> omega
        exact ⟨_, hcomp i hi, hmono 0 i (by omega) hi⟩
    have hend : endRaw t = some (startOf (expand es) ((expand es).length - 1)) := by
      rw [endRaw, if_neg (by rw [hhas]; decide), if_neg (by omega), hcount, hcomp _ (by omega)]
      simp only
      split
      · rename_i h1
        apply endLoop_same
        · have : lookUp = 100 := rfl
          split <;> omega
        · intro i a c
          exact ⟨_, hcomp i (by omega), hmono i _ (by omega) (by omega)⟩
      · rfl
    refine ⟨_, _, _, ⟨⟨0, hpos, hshown 0⟩, ?_, ?_, ⟨(expand es).length - 1, by omega, hshown _, rfl⟩⟩, hstart, hend, ?_⟩
    · intro i hi; rw [hshown]; exact hmono 0 i (by omega) hi
    · intro i hi; rw [hshown]; exact hmono i _ (by omega) (by omega)
    · rw [endPlusRaw, hend]
      simp only
      rw [if_neg (by rw [hhas]; decide), hcount, hcomps, compsOf_get, List.getElem?_eq_getElem (by omega)]
      simp only [Option.map_some, Option.some.injEq]
      have := hfit ((expand es).length - 1) (by omega)
      rw [hshown] at this
      exact Nat.mod_eq_of_lt this
  · obtain ⟨hhas, hsort, hperm, hcomps⟩ := with_offsets h cs hc hlen
    have hl : t.ordered.length = (expand es).length := by rw [hperm.length_eq]; simp
    have hmem : ∀ i, i < (expand es).length → (shown (expand es) (expand cs) i, i) ∈ t.ordered := fun i hi => hperm.mem_iff.mpr (List.mem_map.mpr ⟨i, List.mem_range.mpr hi, rfl⟩)
    have hback : ∀ c ∈ t.ordered, c.2 < (expand es).length ∧ c.1 = shown (expand es) (expand cs) c.2 := by
      intro c hcm
      obtain ⟨i, hi, rfl⟩ := List.mem_map.mp (hperm.mem_iff.mp hcm)
      exact ⟨List.mem_range.mp hi, rfl⟩
    obtain ⟨a, ha⟩ : ∃ a, t.ordered[0]? = some a := ⟨_, List.getElem?_eq_getElem (by omega)⟩
    obtain ⟨z, hz⟩ : ∃ z, t.ordered[t.ordered.length - 1]? = some z := ⟨_, List.getElem?_eq_getElem (by omega)⟩
    obtain ⟨a1, a2⟩ := hback a (List.mem_of_getElem? ha)
    obtain ⟨z1, z2⟩ := hback z (List.mem_of_getElem? hz)
    have hend : endRaw t = some z.1 := by
      rw [endRaw, if_pos hhas, if_neg (by omega), show t.count - 1 = t.ordered.length - 1 by omega, hz]
      rfl
    refine ⟨a.1, z.1, z.1 + (expand es)[z.2], ⟨⟨a.2, a1, a2.symm⟩, ?_, ?_, ⟨z.2, z1, z2.symm, rfl⟩⟩, ?_, hend, ?_⟩
    · intro i hi; exact sorted_first hsort a ha _ (hmem i hi)
    · intro i hi; exact sorted_last hsort z hz _ (hmem i hi)
    · rw [startRaw, if_pos hhas, ha]; rfl
    · rw [endPlusRaw, hend]
      simp only
      rw [if_pos hhas, show t.count - 1 = t.ordered.length - 1 by omega, hz]
      simp only
      rw [hcomps, List.getElem?_mapIdx, List.getElem?_eq_getElem z1]
      simp only [Option.map_some, Option.some.injEq]
      have := hfit z.2 z1
      rw [← z2] at this
      rw [Nat.add_comm]
      exact Nat.mod_eq_of_lt this

/-- C159: for every track that can be opened, with positive durations, with or without composition offsets: the start is the earliest time a sample is shown, the end is the end of the sample shown last, the mean is the
time between over the number of samples; all in 100 ns rounded down. -/
theorem times_shown_partial {b : TrackBoxes} {t : Track} {es : List (Nat × Nat)} (h : Timed b t es) (os : List Nat) (ho : HasOffsets b es os) (mdhd : Nat)
    (hfit : ∀ i, (hi : i < (expand es).length) → 10000000 * (shown (expand es) os i + (expand es)[i]) < 2 ^ 64) :
    ∃ first last fin, Span (expand es) os first last fin ∧ start t = some (10000000 * first / b.scale) ∧ Span.last t = some (10000000 * last / b.scale) ∧
      endPlus t = some (10000000 * fin / b.scale) ∧
      (1 < (expand es).length → mean t mdhd = some ((10000000 * fin / b.scale - 10000000 * first / b.scale) / (expand es).length)) := by
  obtain ⟨first, last, fin, hs, h1, h2, h3⟩ := raw_times h os ho fun i hi => by have := hfit i hi; omega
  obtain ⟨-, hcount, hscale, hpos⟩ := timed_dec h
  obtain ⟨j, hj, hj1, hj2⟩ := hs.fin_is
  have hb := hfit j hj
  rw [hj1, ← hj2] at hb
  have hfl : first ≤ last := by rw [← hj1]; exact hs.first_le j hj
  have e1 : hns first t.scale = 10000000 * first / b.scale := by rw [hns_eq _ _ (by omega), hscale]
  have e2 : hns last t.scale = 10000000 * last / b.scale := by rw [hns_eq _ _ (by omega), hscale]
  have e3 : hns fin t.scale = 10000000 * fin / b.scale := by rw [hns_eq _ _ (by omega), hscale]
  have s1 : start t = some (10000000 * first / b.scale) := by rw [start, h1, ← e1]; rfl
  have s3 : endPlus t = some (10000000 * fin / b.scale) := by rw [endPlus, h3, ← e3]; rfl
  refine ⟨first, last, fin, hs, s1, by rw [Span.last, h2, ← e2]; rfl, s3, ?_⟩
  intro hn
  rw [mean, if_neg (by omega), s1, s3]
  simp only [Option.some.injEq, sub64, hcount]
  have hle : 10000000 * first / b.scale ≤ 10000000 * fin / b.scale := Nat.div_le_div_right (by omega)
  have hlt : 10000000 * fin / b.scale < 2 ^ 64 := Nat.lt_of_le_of_lt (Nat.div_le_self _ _) hb
  congr 1
  omega

/-- Four frames of 40 units, the second shown last: start 40, end 200 + 40, mean 50 ms (200 / 4). -/
def exVideo : TrackBoxes := { sm := ⟨[], 10, 4, [], []⟩, stts := [1, 4, 40], ctts := some [3, 1, 40, 1, 160, 2, 0], scale := 1000 }

/-- The hypotheses of `times_shown_partial` are met by a track with reordering. -/
example : ∃ t, Timed exVideo t [(4, 40)] ∧ HasOffsets exVideo [(4, 40)] [40, 160, 0, 0] ∧ start t = some 400000 ∧ Span.last t = some 2000000 ∧ endPlus t = some 2400000 ∧ mean t 7 = some 500000 := by
  refine ⟨(openTrack exVideo).get (by decide +kernel), ⟨(Option.some_get _).symm, rfl, by decide, by decide, by decide, by decide, by decide⟩, Or.inr ⟨[(1, 40), (1, 160), (2, 0)], rfl, by decide, by decide⟩, ?_⟩
  decide +kernel

/-! ### Decoding times -/

theorem decoding_at {b : TrackBoxes} {t : Track} {es : List (Nat × Nat)} (h : Timed b t es) (n : Nat) (hn : n < (expand es).length) :
    t.decoding n = some (10000000 * ((expand es).take n).sum / b.scale) := by
  obtain ⟨-, -, hscale, -⟩ := timed_dec h
  have hf := h.fits
  have hle : startOf (expand es) n ≤ (expand es).sum := Verif.Reader.startOf_le_sum _ _
  rw [Track.decoding, Verif.Reader.timed_decoding h n hn, Option.map_some, hns_eq _ _ (by omega), hscale]
  rfl

theorem timed_length {b : TrackBoxes} {t : Track} {es : List (Nat × Nat)} (h : Timed b t es) : t.comps.length = (expand es).length := by
  obtain ⟨d, c, f, h1, h2, _, h4, h5, h6, _⟩ := openTrack_fields h.opened
  obtain ⟨s, p1, p2, _⟩ := parse_stts_eq es []
  rw [show pairWords es ++ [] = b.stts by rw [h.stts, pairWords, List.append_nil], h1] at p1
  simp at p1; subst p1
  have hmap : t.comps.map (·.decoding) = d.comps.map (·.decoding) := by
    rw [h6]
    cases hc : b.ctts with
    | none => rw [hc] at h2; simp [openCtts] at h2; subst h2; rfl
    | some w =>
      rw [hc] at h2
      simp only [openCtts, Option.map_eq_some_iff] at h2
      obtain ⟨s, hs, rfl⟩ := h2
      simp only [parseCtts] at hs
      split at hs
      · simp at hs
      · split at hs
        · simp at hs
        · have := Verif.Reader.cttsOuter_decoding _ _ _ hs
          simpa using this
  have := congrArg List.length hmap
  rw [List.length_map, List.length_map, p2] at this
  simpa [compsOf] using this

/-- C160: the decoding time of the first sample is right for every stream. -/
theorem decoding_start {b : TrackBoxes} {t : Track} {es : List (Nat × Nat)} (h : Timed b t es) (streams : List Track) (i : Nat) (hi : streams[i]? = some t) :
    decodingStart streams i = t.decoding 0 ∧ t.decoding 0 = some 0 := by
  obtain ⟨-, -, -, hpos⟩ := timed_dec h
  refine ⟨by rw [decodingStart, hi], ?_⟩
  rw [decoding_at h 0 hpos]
  simp

/-- C160, false: in every file the decoding time of the last sample of a stream is wrong, too early, unless the stream has as many samples as the file has streams (time scales up to 10 MHz; with fewer samples memory behind the array
is read). -/
theorem decoding_end_wrong {b : TrackBoxes} {t : Track} {es : List (Nat × Nat)} (h : Timed b t es) (hscale : b.scale ≤ 10000000) (streams : List Track) (i : Nat) (hi : streams[i]? = some t) :
    (streams.length < t.count → ∃ x y, decodingEnd streams i = some x ∧ t.decoding (t.count - 1) = some y ∧ x < y) ∧ (t.count < streams.length → decodingEnd streams i = none) := by
  obtain ⟨-, hcount, hs, hpos⟩ := timed_dec h
  have hstreams : 0 < streams.length := by have := (List.getElem?_eq_some_iff.mp hi).1; omega
  constructor
  · intro hlt
    refine ⟨10000000 * ((expand es).take (streams.length - 1)).sum / b.scale, _, ?_, decoding_at h (t.count - 1) (by omega), ?_⟩
    · rw [decodingEnd, hi]
      exact decoding_at h (streams.length - 1) (by omega)
    · have := Verif.Reader.startOf_lt (expand es) (Verif.Reader.expand_pos h.pos) (t.count - 1) (streams.length - 1) (by omega) (by omega)
      simp only [startOf] at this
      have hb := h.scale
      rw [Nat.div_lt_iff_lt_mul hb]
      have hm := Nat.div_add_mod (10000000 * ((expand es).take (t.count - 1)).sum) b.scale
      have hr := Nat.mod_lt (10000000 * ((expand es).take (t.count - 1)).sum) hb
      rw [Nat.mul_comm] at hm
      omega
  · intro hlt
    have hlen := timed_length h
    rw [decodingEnd, hi]
    simp only [Track.decoding, decodingTime]
    rw [List.getElem?_eq_none (by omega)]
    rfl

/-- C160: a file with one stream of four frames of 40 ms: the last frame is decoded at 120 ms, the answer is 0. -/
theorem decoding_end_witness : (openTrack exVideo).map (fun t => (decodingEnd [t] 0, t.decoding 3)) = some (some 0, some 1200000) := by decide +kernel

end Verif.Span

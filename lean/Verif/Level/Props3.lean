import Verif.Level.Props2
import Verif.Tables.PropsTime
import Verif.Tables.PropsRead
/-
C114 through the file: the tables of a finished movie, read back.
-/
namespace Verif.Level
open Verif.Tables
open Verif.Tables.Spec (expand)
open Verif.Reader (TrackBoxes Track openTrack hns)
open Spec

/-! ### composition offsets, whenever the reader accepts the table -/

theorem cttsInner_comps (off : Nat) : ∀ (k : Nat) (s t : CttsRd), cttsInner off k s = some t →
    t.n = s.n + k ∧ ∀ i : Nat, t.comps[i]? = (s.comps[i]?).map (fun c => if s.n ≤ i ∧ i < s.n + k then { c with offset := off } else c)
  | 0, s, t, h => by
    simp only [cttsInner, Option.some.injEq] at h
    subst h
    refine ⟨rfl, ?_⟩
    intro i
    have : ∀ c : Comp, (if s.n ≤ i ∧ i < s.n + 0 then { c with offset := off } else c) = c := by
      intro c; rw [if_neg (by omega)]
    simp only [this, Option.map_id']
  | k + 1, s, t, h => by
    simp only [cttsInner] at h
    split at h
    · rename_i c hc
      split at h
      · simp at h
      · obtain ⟨h1, h2⟩ := cttsInner_comps off k _ t h
        refine ⟨by rw [h1]; simp only; omega, ?_⟩
        intro i
        rw [h2 i]
        simp only [List.getElem?_set]
        by_cases hi : s.n = i
        · subst hi
          have hlt := (List.getElem?_eq_some_iff.1 hc).1
          simp only [if_true, hlt, Option.map_some, hc, Option.some.injEq]
          rw [if_neg (by omega), if_pos (by omega)]
        · rw [if_neg hi]
          cases s.comps[i]? with
          | none => rfl
          | some d =>
            simp only [Option.map_some, Option.some.injEq]
            by_cases hcase : s.n + 1 ≤ i ∧ i < s.n + 1 + k
            · rw [if_pos hcase, if_pos (by omega)]
            · rw [if_neg hcase, if_neg (by omega)]
    · rename_i hc
      obtain ⟨h1, h2⟩ := cttsInner_comps off k _ t h
      refine ⟨by rw [h1]; simp only; omega, ?_⟩
      intro i
      rw [h2 i]
      have hlen : s.comps.length ≤ s.n := List.getElem?_eq_none_iff.1 hc
      cases hd : s.comps[i]? with
      | none => rfl
      | some d =>
        have hlt := (List.getElem?_eq_some_iff.1 hd).1
        simp only [Option.map_some, Option.some.injEq]
        rw [if_neg (by omega), if_neg (by omega)]

theorem cttsOuter_comps : ∀ (cs : List (Nat × Nat)) (s t : CttsRd), cttsOuter cs s = some t →
    ∀ i : Nat, t.comps[i]? = (s.comps[i]?).map (fun c =>
      if s.n ≤ i then { c with offset := (expand cs).getD (i - s.n) c.offset } else c)
  | [], s, t, h => by
    simp only [cttsOuter, Option.some.injEq] at h
    subst h
    intro i
    simp [expand]
  | (k, off) :: cs, s, t, h => by
    simp only [cttsOuter] at h
    split at h
    · simp at h
    · rename_i s' hs'
      obtain ⟨h1, h2⟩ := cttsInner_comps off k s s' hs'
      have h3 := cttsOuter_comps cs s' t h
      intro i
      rw [h3 i, h2 i, h1]
      have hexp : expand ((k, off) :: cs) = List.replicate k off ++ expand cs := by simp [expand]
      cases s.comps[i]? with
      | none => rfl
      | some c =>
        simp only [Option.map_some, Option.some.injEq, hexp]
        by_cases ha : s.n ≤ i
        · by_cases hb : i < s.n + k
          · rw [if_neg (show ¬ s.n + k ≤ i by omega), if_pos (show s.n ≤ i ∧ i < s.n + k from ⟨ha, hb⟩), if_pos ha]
            congr 1
            rw [List.getD_eq_getElem?_getD, List.getElem?_append_left (by simp; omega)]
            simp [show i - s.n < k by omega]
          · rw [if_pos (show s.n + k ≤ i by omega), if_neg (show ¬ (s.n ≤ i ∧ i < s.n + k) by omega), if_pos ha]
            congr 1
            rw [List.getD_eq_getElem?_getD, List.getD_eq_getElem?_getD, List.getElem?_append_right (by simp; omega)]
            simp [show i - s.n - k = i - (s.n + k) by omega]
        · rw [if_neg (show ¬ s.n + k ≤ i by omega), if_neg (show ¬ (s.n ≤ i ∧ i < s.n + k) by omega), if_neg ha]

theorem parseCtts_comps (comps : List Comp) (cs : List (Nat × Nat)) (t : CttsRd)
    (h : parseCtts comps (pairWords cs) = some t) (i : Nat) :
    t.comps[i]? = (comps[i]?).map (fun c => { c with offset := (expand cs).getD i c.offset }) := by
  simp only [parseCtts, pairWords] at h
  have hp := pairs_words cs []
  rw [List.append_nil] at hp
  rw [hp] at h
  have := cttsOuter_comps cs _ t h i
  simpa using this

/-! ### one track -/

/-- The stream can be written without loss: times ordered, not decoded late, and the numbers fit the 32 bit fields of the
tables. `e` is the loss of the floating point conversion in ticks. -/
structure Fits (s : LStream) (e : Nat) : Prop where
  ordered : s.samples.Pairwise (fun a b => a.decoding ≤ b.decoding)
  early : ∀ x ∈ s.samples, x.decoding ≤ x.composition + s.ctts
  nocomp : s.hasComposition = false → s.ctts = 0 → ∀ x ∈ s.samples, x.decoding = x.composition
  len : s.samples.length + 1 < 2 ^ 32
  size : ∀ x ∈ s.samples, (x.composition + s.ctts + s.samples.length + 1) * s.scale + e * 10000000 < 2 ^ 32 * 10000000
  small : ∀ x ∈ s.samples, x.composition + s.ctts < 2 ^ 63
  pos : 0 < s.scale

theorem take_sum_le (l : List Nat) (i : Nat) : ∀ d, l[i]? = some d → d ≤ (l.take (i + 1)).sum := by
  intro d hd
  rw [List.take_add_one, hd, List.sum_append]
  simp

theorem deltas_length (ts hn : Nat → Nat) : ∀ (ds : List Nat) (l : Nat), (deltas ts hn l ds).length = ds.length
  | [], _ => rfl
  | d :: ds, l => by simp [deltas, deltas_length ts hn ds]

/-- The start of sample `i` in the table of decoding times. -/
theorem stts_start (ts hn : Nat → Nat) (allowEmpty : Bool) (decs : List Nat) (hne : decs ≠ []) (hlen : decs.length + 1 < 2 ^ 32)
    (h32 : ∀ d ∈ deltas ts hn 0 decs, d < 2 ^ 32) :
    decs.length ≤ (expand (sttsEntries ts hn allowEmpty decs)).length ∧ ∀ i, i < decs.length →
      ((expand (sttsEntries ts hn allowEmpty decs)).take i).sum + ((deltas ts hn 0 decs).take 1).sum =
        ((deltas ts hn 0 decs).take (i + 1)).sum := by
  match decs, hne with
  | [d0], _ =>
    rw [stts_single_witness]
    refine ⟨by simp [expand], ?_⟩
    intro i hi
    obtain rfl : i = 0 := by simpa using hi
    simp
  | d0 :: d1 :: ds, _ =>
    obtain ⟨steps, last, h1, h2⟩ := stts_written_partial ts hn allowEmpty d0 d1 ds (by simp at hlen; omega) h32
    have hl := deltas_length ts hn (d0 :: d1 :: ds) 0
    rw [h1] at hl
    simp only [List.length_cons, List.length_append, List.length_nil] at hl
    rw [h1, h2]
    refine ⟨by simp; omega, ?_⟩
    intro i hi
    simp only [List.length_cons] at hi
    simp only [List.take_succ_cons, List.take_zero, List.sum_cons, List.sum_nil, Nat.add_zero]
    have : (steps ++ [last, last]).take i = (steps ++ [last]).take i := by
      rw [show steps ++ [last, last] = steps ++ [last] ++ [last] by simp, List.take_append_of_le_length (by simp; omega)]
    rw [this]; omega

theorem hns_bounds (t T : Nat) (hT : 0 < T) (h : 10000000 * t < 2 ^ 64) :
    hns t T * T ≤ t * 10000000 ∧ t * 10000000 < hns t T * T + T := by
  simp only [hns, Nat.mod_eq_of_lt h]
  have h1 := Nat.div_add_mod (10000000 * t) T
  have h2 := Nat.mod_lt (10000000 * t) hT
  rw [Nat.mul_comm T] at h1
  omega

theorem ticks_arith (H S A o e fd xd xo it sc : Nat) (hA : A * H ≤ fd ∧ fd < (A + e) * H)
    (ho : o * H ≤ xo ∧ xo < (o + e) * H) (hS : (S + A) * H ≤ xd + it)
    (hS2 : xd < (S + A + e) * H + sc) :
    (S + o) * H + fd ≤ xd + xo + it + e * H ∧ xd + xo < (S + o) * H + fd + 2 * e * H + sc := by
  simp only [Nat.add_mul, Nat.mul_assoc] at *
  omega

/-- What the reader gives for a sample of a written stream, in ticks. -/
theorem ticks_read (ts hn : Nat → Nat → Nat) (allowEmpty : Bool) (sm : SampleManager) (s : LStream) (t : Track) (e : Nat)
    (hfit : Fits s e) (hts : ScaleDown (ts s.scale) s.scale e) (hhn : HnanoDown (hn s.scale) s.scale)
    (hopen : openTrack (trackBoxes ts hn allowEmpty sm s) = some t) (first : SampleDes)
    (hfirst : s.samples.head? = some first) (i : Nat) (x : SampleDes) (hx : s.samples[i]? = some x) :
    ∃ k, compositionTime t.comps i = some k ∧ t.scale = s.scale ∧
      k * 10000000 + first.decoding * s.scale ≤ (x.composition + s.ctts) * s.scale + (i + 1) * s.scale + e * 10000000 ∧
      (x.composition + s.ctts) * s.scale < k * 10000000 + first.decoding * s.scale + 2 * e * 10000000 + s.scale ∧
      (s.scale ∣ 10000000 →
        k * 10000000 + first.decoding * s.scale ≤ (x.composition + s.ctts) * s.scale + e * 10000000 ∧
        (x.composition + s.ctts) * s.scale < k * 10000000 + first.decoding * s.scale + 2 * e * 10000000) := by
  obtain ⟨hord, hearly, hnocomp, hlen, hsize, hsmall, hpos⟩ := hfit
  have hxm := List.mem_of_getElem? hx
  have hi : i < s.samples.length := (List.getElem?_eq_some_iff.1 hx).1
  generalize hdecs : s.samples.map (·.decoding) = decs at *
  have hdl : decs.length = s.samples.length := by rw [← hdecs]; simp
  have hdne : decs ≠ [] := by
    intro h; rw [h] at hdl; simp at hdl; omega
  have hpw : decs.Pairwise (· ≤ ·) := by rw [← hdecs, List.pairwise_map]; exact hord
  have hsc : ∀ z ∈ s.samples, (z.composition + s.ctts + s.samples.length + 1) * s.scale =
      (z.composition + s.ctts) * s.scale + (s.samples.length + 1) * s.scale := by
    intro z _; rw [← Nat.add_mul, Nat.add_assoc]
  have hd64 : ∀ d ∈ decs, d < 2 ^ 64 := by
    intro d hd
    rw [← hdecs] at hd
    obtain ⟨z, hz, rfl⟩ := List.mem_map.1 hd
    have h1 := hearly z hz
    have h2 := hsmall z hz
    omega
  have hget : ∀ (j : Nat) (z : SampleDes), s.samples[j]? = some z → decs[j]? = some z.decoding := by
    intro j z hz; rw [← hdecs]; simp [hz]
  have hdrift : ∀ (j : Nat) (z : SampleDes), s.samples[j]? = some z →
      ((deltas (ts s.scale) (hn s.scale) 0 decs).take (j + 1)).sum * 10000000 ≤ z.decoding * s.scale + (j + 1) * s.scale ∧
      z.decoding * s.scale < (((deltas (ts s.scale) (hn s.scale) 0 decs).take (j + 1)).sum + e) * 10000000 + s.scale :=
    fun j z hz => stts_drift_bound _ _ s.scale e hpos hts hhn decs hpw hd64 j z.decoding (hget j z hz)
  have h32 : ∀ d ∈ deltas (ts s.scale) (hn s.scale) 0 decs, d < 2 ^ 32 := by
    intro d hd
    obtain ⟨j, hj⟩ := List.getElem?_of_mem hd
    have hjl := (List.getElem?_eq_some_iff.1 hj).1
    rw [deltas_length, hdl] at hjl
    have hz := List.getElem?_eq_getElem hjl
    have h1 := (hdrift j _ hz).1
    have h2 := take_sum_le _ j d hj
    have h3 := hearly _ (List.getElem_mem hjl)
    have h4 := hsize _ (List.getElem_mem hjl)
    rw [hsc _ (List.getElem_mem hjl)] at h4
    have h5 : s.samples[j].decoding * s.scale ≤ (s.samples[j].composition + s.ctts) * s.scale := Nat.mul_le_mul_right _ h3
    have h6 : (j + 1) * s.scale ≤ (s.samples.length + 1) * s.scale := Nat.mul_le_mul_right _ (by omega)
    omega
  obtain ⟨hstl, hst⟩ := stts_start (ts s.scale) (hn s.scale) allowEmpty decs hdne (by omega) h32
  -- the decoding times as read
  simp only [openTrack, trackBoxes] at hopen
  obtain ⟨d, hd1, hopen⟩ := Option.bind_eq_some_iff.mp hopen
  obtain ⟨c, hc1, hopen⟩ := Option.bind_eq_some_iff.mp hopen
  obtain ⟨f, _, hopen⟩ := Option.bind_eq_some_iff.mp hopen
  simp only [pure, Option.some.injEq] at hopen
  obtain ⟨d', hd', hlen', hread⟩ := stts_read (sttsEntries (ts s.scale) (hn s.scale) allowEmpty decs) []
  rw [List.append_nil] at hd'
  rw [hdecs] at hd1
  have hdd : d = d' := by rw [hd'] at hd1; simpa using hd1.symm
  subst hdd
  have hii : i < (expand (sttsEntries (ts s.scale) (hn s.scale) allowEmpty decs)).length := by omega
  obtain ⟨hdt, _⟩ := hread i hii
  simp only [decodingTime] at hdt
  obtain ⟨ci, hci, hcd⟩ := Option.map_eq_some_iff.mp hdt
  -- the composition offset as read
  have hoff : ∃ o, compositionTime t.comps i = some (ci.decoding + o) ∧
      o * 10000000 ≤ (x.composition + s.ctts - x.decoding) * s.scale ∧
      (x.composition + s.ctts - x.decoding) * s.scale < (o + e) * 10000000 := by
    have hsub : (sub64 x.composition x.decoding + s.ctts) % 2 ^ 64 = x.composition + s.ctts - x.decoding := by
      have h1 := hearly x hxm
      have h2 := hsmall x hxm
      simp only [sub64]
      omega
    cases hct : cttsEntries (ts s.scale) s.ctts { samples := s.samples, hasComposition := s.hasComposition } with
    | none =>
      have hno : s.hasComposition = false ∧ s.ctts = 0 := by
        by_contra hn
        simp only [cttsEntries] at hct
        rw [if_neg hn] at hct
        simp at hct
      rw [hct] at hc1
      simp only [Option.map_none] at hc1
      have hcn : c = none := by simpa [Verif.Reader.openCtts] using hc1.symm
      subst hcn
      refine ⟨0, ?_, by simp, ?_⟩
      · rw [← hopen]
        simp only [compositionTime, hci, Option.map_some]
        -- offsets are zero before a composition table is read
        obtain ⟨d2, g1, g2, _⟩ := parse_stts_eq (sttsEntries (ts s.scale) (hn s.scale) allowEmpty decs) []
        rw [List.append_nil, hd'] at g1
        simp only [Option.some.injEq] at g1
        subst g1
        rw [g2, compsOf_get] at hci
        obtain ⟨v, _, rfl⟩ := Option.map_eq_some_iff.mp hci
        rfl
      · have := hnocomp hno.1 hno.2 x hxm
        have he : x.composition + s.ctts - x.decoding = 0 := by rw [this, hno.2]; omega
        rw [he]
        have := (hts 0).2
        have h0 := (hts 0).1
        have hz : ts s.scale 0 = 0 := by omega
        rw [hz] at this
        omega
    | some cs =>
      rw [hct] at hc1
      simp only [Option.map_some, Verif.Reader.openCtts] at hc1
      obtain ⟨cr, hcr, rfl⟩ := Option.map_eq_some_iff.mp hc1
      have hcomps := parseCtts_comps d.comps cs cr hcr i
      have hval : ∀ z, ts s.scale z * 10000000 ≤ z * s.scale := fun z => (hts z).1
      have hexp := ctts_written (ts s.scale) s.ctts { samples := s.samples, hasComposition := s.hasComposition } cs
        (by simp only; omega) (by
          intro z hz
          simp only at hz
          have hsub' : (sub64 z.composition z.decoding + s.ctts) % 2 ^ 64 = z.composition + s.ctts - z.decoding := by
            have h1 := hearly z hz
            have h2 := hsmall z hz
            simp only [sub64]
            omega
          rw [hsub']
          have h1 := hval (z.composition + s.ctts - z.decoding)
          have h2 : (z.composition + s.ctts - z.decoding) * s.scale ≤ (z.composition + s.ctts) * s.scale :=
            Nat.mul_le_mul_right _ (by omega)
          have h3 := hsize z hz
          rw [hsc z hz] at h3
          omega) hct
      refine ⟨ts s.scale (x.composition + s.ctts - x.decoding), ?_, (hts _).1, (hts _).2⟩
      rw [← hopen]
      simp only [compositionTime, hcomps, hci, Option.map_some]
      rw [hexp, List.getD_eq_getElem?_getD, List.getElem?_map, hx, Option.map_some, Option.getD_some, hsub]
  obtain ⟨o, ho, ho1, ho2⟩ := hoff
  refine ⟨_, ho, by rw [← hopen], ?_⟩
  have hf0 : s.samples[0]? = some first := by rw [← List.head?_eq_getElem?]; exact hfirst
  have hsum := hst i (by omega)
  rw [hcd]
  generalize hS : ((expand (sttsEntries (ts s.scale) (hn s.scale) allowEmpty decs)).take i).sum = S at *
  generalize hA : ((deltas (ts s.scale) (hn s.scale) 0 decs).take 1).sum = A at *
  have hA0 : A * 10000000 ≤ first.decoding * s.scale ∧ first.decoding * s.scale < (A + e) * 10000000 := by
    have hdec0 : decs[0]? = some first.decoding := hget 0 first hf0
    have hAe : A = ts s.scale first.decoding := by
      rw [← hA]
      cases hdc : decs with
      | nil => exact absurd hdc hdne
      | cons a l =>
        rw [hdc] at hdec0
        have ha : a = first.decoding := by simpa using hdec0
        rw [ha]
        have := hd64 first.decoding (by rw [hdc, ha]; simp)
        simp only [deltas, List.take_succ_cons, List.take_zero, List.sum_cons, List.sum_nil, Nat.add_zero]
        rw [show sub64 first.decoding 0 = first.decoding from by simp only [sub64]; omega]
    rw [hAe]; exact hts _
  have hi1 := hdrift i x hx
  rw [← hsum] at hi1
  have hxe : (x.composition + s.ctts) * s.scale = x.decoding * s.scale + (x.composition + s.ctts - x.decoding) * s.scale := by
    rw [← Nat.add_mul]; congr 1; have := hearly x hxm; omega
  rw [hxe]
  have hfin := ticks_arith 10000000 S A o e _ _ _ _ s.scale hA0 ⟨ho1, ho2⟩ hi1.1 hi1.2
  refine ⟨hfin.1, hfin.2, ?_⟩
  intro hdvd
  have hnd := stts_no_drift _ _ s.scale e hpos hdvd hts hhn decs hpw hd64 i x.decoding (hget i x hx)
  rw [← hsum] at hnd
  have := ticks_arith 10000000 S A o e _ _ _ 0 0 hA0 ⟨ho1, ho2⟩ (Nat.le_add_right_of_le hnd.1) (Nat.lt_add_right _ hnd.2)
  rw [Nat.add_zero, Nat.add_zero] at this
  exact this

theorem div_up (a b T r : Nat) (hT : 0 < T) (h : a * T ≤ b * T + r) : a ≤ b + r / T := by
  rcases Nat.lt_or_ge a b with hlt | hge
  · have := Nat.zero_le (r / T); omega
  · have h1 : (a - b) * T ≤ r := by rw [Nat.sub_mul]; omega
    have := (Nat.le_div_iff_mul_le hT).2 h1
    omega

theorem lin1 (kH fd cc it n eH X : Nat) (h1 : kH + fd ≤ cc + it + eH) (h2 : it ≤ n) (h3 : cc + n + eH < X) : kH < X := by
  omega

theorem lin2 (kH fd cc eH T cT : Nat) (h1 : cc < kH + fd + eH + T) (h2 : kH < cT + T) : cc ≤ cT + fd + 2 * T + eH := by
  omega

theorem lin3 (so tH eH cM M : Nat) (h1 : so < tH + eH) (h2 : tH < cM + M) : so ≤ cM + M + eH := by
  omega

/-- C114, one track through the file. A stream is written and the reader opens the track: the time of sample `i` as
the reader gives it (composition time plus the delay of the track) is the time `shown`, too late by no more than
`i + 1` units of 100 ns and one tick of the media, too early by no more than two ticks of the media, one of the movie and
300 ns (ticks in units of 100 ns, `e` times as long if the floating point conversions lose `e` ticks). With a media time scale that
divides ten million it does not run late with `i`. -/
theorem track_read (ts hn : Nat → Nat → Nat) (allowEmpty : Bool) (sm : SampleManager) (s : LStream) (t : Track) (e : Nat)
    (hfit : Fits s e) (hts : ScaleDown (ts s.scale) s.scale e) (hhn : HnanoDown (hn s.scale) s.scale)
    (hM : 0 < s.mvhdScale) (htm : ScaleDown (ts s.mvhdScale) s.mvhdScale e) (hso : s.streamOffset * s.mvhdScale < 2 ^ 64)
    (hopen : openTrack (trackBoxes ts hn allowEmpty sm s) = some t) (first : SampleDes)
    (hfirst : s.samples.head? = some first) (i : Nat) (x : SampleDes) (hx : s.samples[i]? = some x) :
    ∃ c, t.composition i = some c ∧
      ((c + t.offset : Nat) : Int) ≤ shown x.composition first.decoding s.ctts s.streamOffset +
        (i + 1 + e * 10000000 / s.scale : Nat) ∧
      shown x.composition first.decoding s.ctts s.streamOffset ≤
        (c + t.offset + 3 + 2 * e * 10000000 / s.scale + e * 10000000 / s.mvhdScale : Nat) ∧
      (s.scale ∣ 10000000 → ((c + t.offset : Nat) : Int) ≤ shown x.composition first.decoding s.ctts s.streamOffset +
        (e * 10000000 / s.scale : Nat)) := by
  obtain ⟨k, hk, hsc, h1, h2, h3⟩ := ticks_read ts hn allowEmpty sm s t e hfit hts hhn hopen first hfirst i x hx
  have hi : i < s.samples.length := (List.getElem?_eq_some_iff.1 hx).1
  have hsize := hfit.size x (List.mem_of_getElem? hx)
  have hpos := hfit.pos
  have hkb : 10000000 * k < 2 ^ 64 := by
    have he : (x.composition + s.ctts + s.samples.length + 1) * s.scale =
        (x.composition + s.ctts) * s.scale + (s.samples.length + 1) * s.scale := by rw [← Nat.add_mul, Nat.add_assoc]
    have h6 : (i + 1) * s.scale ≤ (s.samples.length + 1) * s.scale := Nat.mul_le_mul_right _ (by omega)
    rw [Nat.mul_comm]
    rw [he] at hsize
    have : k * 10000000 < 2 ^ 32 * 10000000 := lin1 _ _ _ _ _ _ _ h1 h6 hsize
    refine Nat.lt_of_lt_of_le this ?_
    decide
  obtain ⟨b1, b2⟩ := hns_bounds k s.scale hpos hkb
  refine ⟨hns k s.scale, by simp only [Track.composition, hk, Option.map_some, hsc], ?_⟩
  -- the delay
  have hoff : t.offset ≤ s.streamOffset ∧ s.streamOffset ≤ t.offset + 1 + e * 10000000 / s.mvhdScale := by
    have htof : t.offset = hns (elstOffset ts s) s.mvhdScale := by
      simp only [openTrack, trackBoxes] at hopen
      obtain ⟨d, _, hopen⟩ := Option.bind_eq_some_iff.mp hopen
      obtain ⟨c, _, hopen⟩ := Option.bind_eq_some_iff.mp hopen
      obtain ⟨f, _, hopen⟩ := Option.bind_eq_some_iff.mp hopen
      simp only [pure, Option.some.injEq] at hopen
      rw [← hopen]
      rfl
    rw [htof]
    simp only [elstOffset]
    by_cases h0 : s.streamOffset = 0
    · rw [if_pos h0, h0]
      simp only [hns, Nat.mul_zero, Nat.zero_mod, Nat.zero_div]
      exact ⟨Nat.le_refl _, Nat.zero_le _⟩
    · rw [if_neg h0]
      obtain ⟨q1, q2⟩ := htm s.streamOffset
      obtain ⟨c1, c2⟩ := hns_bounds (ts s.mvhdScale s.streamOffset) s.mvhdScale hM (by
        rw [Nat.mul_comm]; exact Nat.lt_of_le_of_lt q1 hso)
      refine ⟨Nat.le_of_mul_le_mul_right (Nat.le_trans c1 q1) hM, ?_⟩
      apply div_up _ _ _ _ hM
      rw [Nat.add_mul, Nat.one_mul]
      rw [Nat.add_mul] at q2
      exact lin3 _ _ _ _ _ q2 c2
  have hup : hns k s.scale + first.decoding ≤ x.composition + s.ctts + (i + 1) + e * 10000000 / s.scale := by
    apply div_up _ _ _ _ hpos
    rw [Nat.add_mul, Nat.add_mul _ (i + 1)]
    exact Nat.le_trans (Nat.add_le_add_right b1 _) h1
  have hlo : x.composition + s.ctts ≤ hns k s.scale + first.decoding + 2 + 2 * e * 10000000 / s.scale := by
    apply div_up _ _ _ _ hpos
    rw [Nat.add_mul _ 2, Nat.add_mul (hns k s.scale)]
    exact lin2 _ _ _ _ _ _ h2 b2
  refine ⟨?_, ?_, ?_⟩
  · simp only [shown]; omega
  · simp only [shown]; omega
  · intro hdvd
    have hup : hns k s.scale + first.decoding ≤ x.composition + s.ctts + e * 10000000 / s.scale := by
      apply div_up _ _ _ _ hpos
      have := (h3 hdvd).1
      rw [Nat.add_mul (hns k s.scale)]
      exact Nat.le_trans (Nat.add_le_add_right b1 _) this
    simp only [shown]; omega

/-! ### a whole movie -/

/-- The numbers of a finished stream fit the fields of the file. -/
structure Small (s : LStream) (e : Nat) : Prop where
  len : s.samples.length + 1 < 2 ^ 32
  size : ∀ x ∈ s.samples, (x.composition + s.ctts + s.samples.length + 1) * s.scale + e * 10000000 < 2 ^ 32 * 10000000
  small : ∀ x ∈ s.samples, x.composition + s.ctts < 2 ^ 63
  pos : 0 < s.scale
  mpos : 0 < s.mvhdScale
  delay : s.streamOffset * s.mvhdScale < 2 ^ 64

/-- C114, a movie through the file (partial: the condition on first samples). Every stream with given decoding times has them
in order, not after presentation, and `_has_composition` says whether they differ; the first sample of each stream
is presented first (computed decoding times) or decoded when presented (given ones). Then the movie is finished, and with one delay `K` for all
streams every sample of every track the reader opens is at its composition time plus `K`, up to the rounding
of `track_read`. -/
theorem movie_read_partial (ts hn : Nat → Nat → Nat) (e : Nat) (cttsOffset : Bool) (ss : List LStream) (hne : ss ≠ [])
    (hg : ∀ s ∈ ss, Given s)
    (hgiven : ∀ s ∈ ss, s.auto = false → s.samples.Pairwise (fun a b => a.decoding ≤ b.decoding) ∧
      (∀ x ∈ s.samples, x.decoding ≤ x.composition) ∧
      (s.hasComposition = false → ∀ x ∈ s.samples, x.decoding = x.composition))
    (hfirst : ∀ s ∈ ss, ∀ x, s.samples.head? = some x →
      (s.auto = true → ∀ y ∈ s.samples, x.composition ≤ y.composition) ∧ (s.auto = false → x.decoding = x.composition)) :
    ∃ rs, finish cttsOffset ss = some rs ∧ ∃ K : Int, ∀ (i : Nat) (s r : LStream), ss[i]? = some s → rs[i]? = some r →
      Small r e → ScaleDown (ts r.scale) r.scale e → HnanoDown (hn r.scale) r.scale →
      ScaleDown (ts r.mvhdScale) r.mvhdScale e →
      ∀ allowEmpty sm t, openTrack (trackBoxes ts hn allowEmpty sm r) = some t →
        ∀ j x, s.samples[j]? = some x → ∃ c, t.composition j = some c ∧
          ((c + t.offset : Nat) : Int) ≤ x.composition + K + (j + 1 + e * 10000000 / r.scale : Nat) ∧
          x.composition + K ≤ (c + t.offset + 3 + 2 * e * 10000000 / r.scale + e * 10000000 / r.mvhdScale : Nat) := by
  obtain ⟨rs, hfin, _, K, hall⟩ := finish_sync_partial cttsOffset ss hne hg hfirst
  have hready : ∀ s ∈ computeAutoAll ss, Ready s := by
    intro s hs
    simp only [computeAutoAll, List.mem_map] at hs
    obtain ⟨t, ht, rfl⟩ := hs
    exact ready_of_given t (hg t ht)
  obtain ⟨_, _, _, _, _, _, _, hlev⟩ := level_shown (!cttsOffset) (computeAutoAll ss) rs hready hfin
  refine ⟨rs, hfin, K, ?_⟩
  intro i s r hs hr hsmall hts hhn htm allowEmpty sm t hopen j x hx
  obtain ⟨hcomp, hshow⟩ := hall i s r hs hr
  have hsi : (computeAutoAll ss)[i]? = some (if s.auto then computeAuto s else s) := by simp [computeAutoAll, hs]
  obtain ⟨g1, _, _, _, g5, g6, _⟩ := hlev i _ r hsi hr
  obtain ⟨hsne, _, _, ⟨B, hB, h62⟩, _⟩ := hg s (List.mem_of_getElem? hs)
  have hfit : Fits r e := by
    have hkey : r.samples.Pairwise (fun a b => a.decoding ≤ b.decoding) ∧
        (∀ x ∈ r.samples, x.decoding ≤ x.composition + r.ctts) ∧
        (r.hasComposition = false → r.ctts = 0 → ∀ x ∈ r.samples, x.decoding = x.composition) := by
      cases ha : s.auto with
      | false =>
        rw [ha, if_neg (by simp)] at g1 g5
        obtain ⟨k1, k2, k3⟩ := hgiven s (List.mem_of_getElem? hs) ha
        rw [g1, g5]
        exact ⟨k1, fun x hx => Nat.le_add_right_of_le (k2 x hx), fun h _ => k3 h⟩
      | true =>
        rw [ha, if_pos rfl] at g1 g5 g6
        obtain ⟨_, _, k1, k2, _⟩ := auto_decoding s hsne B hB (by omega)
        rw [g1]
        refine ⟨k1, fun x hx => Nat.le_trans (k2 x hx) (by omega), fun _ h0 => ?_⟩
        exact auto_no_offset s hsne B hB (by omega) (by omega)
    exact ⟨hkey.1, hkey.2.1, hkey.2.2, hsmall.len, hsmall.size, hsmall.small, hsmall.pos⟩
  -- the sample as it is in the finished stream
  have hxc : (r.samples.map (·.composition))[j]? = some x.composition := by rw [hcomp]; simp [hx]
  rw [List.getElem?_map] at hxc
  obtain ⟨z, hz, hzx⟩ := Option.map_eq_some_iff.mp hxc
  obtain ⟨y, hy⟩ : ∃ y, r.samples.head? = some y := by
    cases hrs : r.samples with
    | nil => rw [hrs] at hz; simp at hz
    | cons a l => exact ⟨a, rfl⟩
  obtain ⟨c, hc, hc1, hc2, _⟩ := track_read ts hn allowEmpty sm r t e hfit hts hhn hsmall.mpos htm hsmall.delay hopen y hy j z hz
  rw [hshow y hy z (List.mem_of_getElem? hz), hzx] at hc1 hc2
  exact ⟨c, hc, hc1, hc2⟩

/-- Exact conversions, rounded down. -/
def exactTs (T x : Nat) : Nat := x * T / 10000000

/-- Exact conversions, rounded down. -/
def exactHn (T d : Nat) : Nat := d * 10000000 / T

/-- The movie above: the first picture is shown 0.04 s late, and so is the sound; in the file the sound is 10 ms after the
picture as it should be. -/
example : (finish false movie).map (·.map (fun r =>
      (openTrack (trackBoxes exactTs exactHn false ⟨[], 0, 0, [], []⟩ r)).map (fun t =>
        (t.offset, (List.range r.samples.length).map t.composition)))) =
    some [some (0, [some 400000, some 1200000, some 800000, some 1600000]), some (500000, [some 0, some 200000])] := by
  decide +kernel

example (T : Nat) (hT : 0 < T) : ScaleDown (exactTs T) T 1 ∧ HnanoDown (exactHn T) T :=
  ⟨scale_exact T, hnano_exact T hT⟩

/-- The delay is only known to the millisecond of the movie header: sound that begins 0.9 ms after the picture is read back
as beginning with it, although its own time scale is finer. -/
theorem delay_truncated_witness :
    (finish false [{ samples := [⟨0, 0, 1⟩, ⟨400000, 400000, 1⟩] },
        { samples := [⟨9000, 9000, 1⟩, ⟨209000, 209000, 1⟩], scale := 48000 }]).map (·.map (fun r =>
      (openTrack (trackBoxes exactTs exactHn false ⟨[], 0, 0, [], []⟩ r)).map (fun t => (t.offset, t.composition 0)))) =
    some [some (0, some 0), some (0, some 0)] := by
  decide +kernel

end Verif.Level

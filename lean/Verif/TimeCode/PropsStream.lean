import Verif.TimeCode.Props
import Verif.Reader.PropsFrames
/-
C133: the time codes of a stream of time codes, written and read.
-/
namespace Verif.TimeCode
open Verif.TimeCode.Spec Verif.Reader Verif.Reader.Spec Verif.Tables
open Verif.Tables.Spec (expand)

/-! ### time codes by their number -/

theorem codeOf_proper (k : Nat) : Proper 25 (codeOf k) := by
  simp only [Proper, codeOf]; omega

theorem codeOf_total (k : Nat) : total 25 (codeOf k) = k % day 25 := by
  simp only [total, codeOf, day]; omega

theorem eq_codeOf (t : TC) (k : Nat) (h : Proper 25 t) (hn : t.nFrames = 25) (ht : total 25 t = k % day 25) : t = codeOf k := by
  obtain ⟨h1, h2, h3, h4⟩ := proper_ext 25 t (codeOf k) h (codeOf_proper k) (by rw [ht, codeOf_total])
  cases t; simp only [codeOf] at *; simp only [TC.mk.injEq]; exact ⟨h1, h2, h3, h4, hn⟩

theorem inc_codeOf (k : Nat) : inc (codeOf k) = codeOf (k + 1) := by
  obtain ⟨h1, h2, h3⟩ := inc_total (codeOf k) (codeOf_proper k) rfl
  exact eq_codeOf _ _ h2 h3 (by rw [h1, codeOf_total, Nat.mod_add_mod])

theorem word_codeOf (k : Nat) : (toWord (codeOf k)).toNat = digits (codeOf k) ∧ ofWord (toWord (codeOf k)) = codeOf k := by
  obtain ⟨h1, h2, h3, h4⟩ := codeOf_proper k
  exact word_round_trip (codeOf k) (by omega) (by omega) (by omega) (by omega)

theorem of_digits (w : BitVec 32) (k : Nat) (h : w.toNat = digits (codeOf k)) : w = toWord (codeOf k) ∧ ofWord w = codeOf k := by
  have e : w = toWord (codeOf k) := BitVec.eq_of_toNat_eq (by rw [h, (word_codeOf k).1])
  exact ⟨e, by rw [e, (word_codeOf k).2]⟩

theorem add_codeOf (k x : Nat) (h : x < 2 ^ 32 * 10000000) : add (codeOf k) (ofTime x) = codeOf (k + x / 400000) := by
  obtain ⟨h1, h2, h3, h4⟩ := codeOf_proper k
  obtain ⟨e1, e2, e3, e4⟩ := ofTime_total x h
  have hh : (ofTime x).hours < 2 ^ 30 := by simp only [ofTime, u32]; omega
  obtain ⟨a1, a2⟩ := add_total (codeOf k) (ofTime x) (show 0 < 25 by decide) (by simp only [Small]; omega) (by simp only [Small]; omega)
  exact eq_codeOf _ _ a2 rfl (by
    rw [show (codeOf k).nFrames = 25 from rfl] at a1
    rw [a1, e1, codeOf_total, Nat.mod_add_mod])

theorem sub_zero (bits : Nat) (hb : bits = 32 ∨ bits = 64) (t : TC) (h : Proper 60 t) : sub bits t (ofTime 0) = { t with nFrames := 25 } := by
  obtain ⟨f, s, m, h', n⟩ := t
  simp only [Proper] at h
  have e : ofTime 0 = {} := by decide
  have f0 : ∀ a d b, a < 60 → subField bits a 0 0 d b = (a, 0) := by
    intro a d b ha
    have h1 : u32 (a + 2 * 2 ^ 32 - 0 - 0) = a := by simp only [u32]; omega
    have h2 : toLong bits a = (a : Int) := by rw [toLong, if_neg (by omega)]
    simp only [subField, h1, h2]
    rw [if_neg (by omega)]
    simp only [u32, Int.toNat_natCast, Prod.mk.injEq, and_true]; omega
  have h1 : u32 (h' + 2 * 2 ^ 32 - 0 - 0) = h' := by simp only [u32]; omega
  have h2 : toLong bits h' = (h' : Int) := by rw [toLong, if_neg (by omega)]
  simp only [e, sub, f0 f 25 n (by omega), f0 s 60 60 (by omega), f0 m 60 60 (by omega), h1, h2]
  rw [if_neg (by omega)]
  simp only [u32, Int.toNat_natCast, TC.mk.injEq, true_and, and_true]; omega

/-! ### writing -/

/-- The state of the stream after sample `x`. -/
structure After (s : Ltc) (x : Nat × BitVec 32) : Prop where
  rate : s.rate = 400000
  next : s.next = x.1 + 400000
  base : ∃ k, x.2.toNat = digits (codeOf k) ∧ s.base = codeOf (k + 1)

theorem after_skip (s : Ltc) (x y : Nat × BitVec 32) (h : After s x) (hf : Follows x y) (h64 : y.1 + 400000 < 2 ^ 64) :
    (queueSample s y.1 y.2).2 = false ∧ After (queueSample s y.1 y.2).1 y := by
  obtain ⟨h1, h2, k, h3, h4⟩ := h
  obtain ⟨f1, k', f2, f3⟩ := hf
  have e : codeOf k = codeOf k' := by rw [← (of_digits x.2 k h3).2, (of_digits x.2 k' f2).2]
  have e' : codeOf (k + 1) = codeOf (k' + 1) := by rw [← inc_codeOf, e, inc_codeOf]
  have hw : toWord s.base = y.2 := by rw [h4, e', (of_digits y.2 (k' + 1) f3).1]
  rw [queueSample, if_neg (by rw [h1, h2]; omega), if_pos ⟨by rw [h2, f1], hw⟩]
  refine ⟨rfl, h1, by simp only [u64, h1]; omega, k' + 1, f3, ?_⟩
  simp only [h4, e', inc_codeOf]

theorem after_write (s : Ltc) (x y : Nat × BitVec 32) (h : After s x) (hf : ¬ Follows x y) (hlt : x.1 < y.1)
    (hst : (y.1 - x.1) % 10000 = 0) (hy : Coded y) (h64 : y.1 + 400000 < 2 ^ 64) :
    (queueSample s y.1 y.2).2 = true ∧ After (queueSample s y.1 y.2).1 y := by
  obtain ⟨h1, h2, k, h3, h4⟩ := h
  obtain ⟨k', hk'⟩ := hy
  rw [queueSample, if_neg (by rw [h1, h2]; omega), if_neg]
  · refine ⟨rfl, h1, by simp only [u64, h1]; omega, k', hk', ?_⟩
    simp only [h4, (of_digits y.2 k' hk').2]
    exact inc_codeOf k'
  · rintro ⟨c1, c2⟩
    apply hf
    refine ⟨by rw [h2] at c1; omega, k, h3, ?_⟩
    rw [← c2, h4, (word_codeOf (k + 1)).1]

theorem first_write (x : Nat × BitVec 32) (hx : Coded x) (h0 : ¬ (x.1 < 10000 ∧ x.2 = 0)) (h64 : x.1 + 400000 < 2 ^ 64) :
    (queueSample {} x.1 x.2).2 = true ∧ After (queueSample {} x.1 x.2).1 x := by
  obtain ⟨k', hk'⟩ := hx
  rw [queueSample, if_neg (by simp), if_neg]
  · refine ⟨rfl, rfl, by simp only [u64]; omega, k', hk', ?_⟩
    simp only [(of_digits x.2 k' hk').2]
    exact inc_codeOf k'
  · rintro ⟨c1, c2⟩
    simp only [Nat.zero_div] at c1
    exact h0 ⟨by omega, by rw [← c2]; decide⟩

theorem run_skip (l : List (Nat × BitVec 32)) : ∀ (s : Ltc) (x : Nat × BitVec 32) (m : List (Nat × BitVec 32)), After s x → Run (x :: l) →
    (∀ y ∈ l, y.1 + 400000 < 2 ^ 64) → ∃ s' z, (x :: l).getLast? = some z ∧ After s' z ∧ queueAll s (l ++ m) = queueAll s' m := by
  induction l with
  | nil => intro s x m h _ _; exact ⟨s, x, rfl, h, rfl⟩
  | cons y l ih =>
    intro s x m h hr h64
    have hf : Follows x y := hr 0 x y rfl rfl
    obtain ⟨a1, a2⟩ := after_skip s x y h hf (h64 y (by simp))
    obtain ⟨s', z, b1, b2, b3⟩ := ih _ y m a2 (fun i u v hu hv => hr (i + 1) u v (by simpa using hu) (by simpa using hv))
      (fun w hw => h64 w (by simp [hw]))
    refine ⟨s', z, by rw [List.getLast?_cons_cons]; exact b1, b2, ?_⟩
    rw [List.cons_append, queueAll, a1]
    exact b3

/-- C133: of a history of time codes exactly the first sample of every run is written; a first sample 00:00:00:00 at
time 0 is excluded. -/
theorem thinned_partial (rs : List (List (Nat × BitVec 32))) (hr : Runs rs) (hs : Steady rs.flatten) (hc : ∀ x ∈ rs.flatten, Coded x)
    (h64 : ∀ x ∈ rs.flatten, x.1 + 400000 < 2 ^ 64) (h0 : ∀ x, rs.flatten.head? = some x → ¬ (x.1 < 10000 ∧ x.2 = 0)) :
    queueAll {} rs.flatten = rs.filterMap List.head? := by
  have main : ∀ (rs : List (List (Nat × BitVec 32))) (s : Ltc) (x : Nat × BitVec 32), Runs rs → (∀ y ∈ rs.flatten, x.1 < y.1 ∧ (y.1 - x.1) % 10000 = 0) →
      Steady rs.flatten → (∀ y ∈ rs.flatten, Coded y) → (∀ y ∈ rs.flatten, y.1 + 400000 < 2 ^ 64) → After s x →
      (∀ r y, rs.head? = some r → r.head? = some y → ¬ Follows x y) → queueAll s rs.flatten = rs.filterMap List.head? := by
    intro rs
    induction rs with
    | nil => intros; rfl
    | cons r rs ih =>
      intro s x hr hx hs hc h64 ha hf
      cases r with
      | nil => exact absurd rfl (hr.ne [] (by simp))
      | cons y l =>
        rw [List.flatten_cons, List.cons_append] at hs hc h64 hx ⊢
        obtain ⟨a1, a2⟩ := after_write s x y ha (hf _ y rfl rfl) (hx y (by simp)).1 (hx y (by simp)).2 (hc y (by simp)) (h64 y (by simp))
        obtain ⟨s', z, b1, b2, b3⟩ := run_skip l _ y rs.flatten a2 (hr.run _ (by simp)) (fun w hw => h64 w (by simp [hw]))
        rw [queueAll, a1, if_pos rfl, b3]
        rw [List.filterMap_cons]
        simp only [List.head?_cons]
        congr 1
        have hz : z ∈ y :: l := List.mem_of_getLast? b1
        have hp := List.pairwise_append.1 (show ((y :: l) ++ rs.flatten).Pairwise _ from hs)
        refine ih s' z ⟨fun r h => hr.ne r (by simp [h]), fun r h => hr.run r (by simp [h]),
          fun i r r' u v h1 h2 => hr.cut (i + 1) r r' u v (by simpa using h1) (by simpa using h2)⟩
          (fun w hw => hp.2.2 z hz w hw) hp.2.1 (fun w hw => hc w (by simp [hw])) (fun w hw => h64 w (by simp [hw])) b2 ?_
        intro r' v h1 h2
        refine hr.cut 0 (y :: l) r' z v rfl ?_ b1 h2
        rw [List.head?_eq_getElem?] at h1
        simpa using h1
  cases rs with
  | nil => rfl
  | cons r rs =>
    cases r with
    | nil => exact absurd rfl (hr.ne [] (by simp))
    | cons y l =>
      rw [List.flatten_cons, List.cons_append] at hs hc h64 h0 ⊢
      obtain ⟨a1, a2⟩ := first_write y (hc y (by simp)) (h0 y rfl) (h64 y (by simp))
      obtain ⟨s', z, b1, b2, b3⟩ := run_skip l _ y rs.flatten a2 (hr.run _ (by simp)) (fun w hw => h64 w (by simp [hw]))
      rw [queueAll, a1, if_pos rfl, b3]
      rw [List.filterMap_cons]
      simp only [List.head?_cons]
      congr 1
      have hz : z ∈ y :: l := List.mem_of_getLast? b1
      have hp := List.pairwise_append.1 (show ((y :: l) ++ rs.flatten).Pairwise _ from hs)
      refine main rs s' z ⟨fun r h => hr.ne r (by simp [h]), fun r h => hr.run r (by simp [h]),
        fun i r r' u v h1 h2 => hr.cut (i + 1) r r' u v (by simpa using h1) (by simpa using h2)⟩
        (fun w hw => hp.2.2 z hz w hw) hp.2.1 (fun w hw => hc w (by simp [hw])) (fun w hw => h64 w (by simp [hw])) b2 ?_
      intro r' v h1 h2
      refine hr.cut 0 (y :: l) r' z v rfl ?_ b1 h2
      rw [List.head?_eq_getElem?] at h1
      simpa using h1

/-! ### reading -/

/-- The track of a file that holds the time codes `w`. -/
structure Carries (b : TrackBoxes) (t : Track) (read : Nat → Stored) (w : List (Nat × BitVec 32)) : Prop where
  opened : (∃ es, Timed b t es) ∨ (openTrack b = some t ∧ b.stts = [1, 2, 0] ∧ b.sm.sampleCount = 1 ∧ 0 < b.scale)
  ctts : b.ctts = none
  scale : b.scale ∣ 10000000
  count : b.sm.sampleCount = w.length
  samples : ∀ n x, w[n]? = some x → ∃ c p, t.composition n = some c ∧ c + t.offset = x.1 ∧ t.sm.offset n = some p ∧
    (read p).code = x.2 ∧ (read p).user ≠ flagMissing

/-- which sample is taken for a time -/
theorem finds {b : TrackBoxes} {t : Track} {read : Nat → Stored} {w : List (Nat × BitVec 32)} (h : Carries b t read w) (pt : Nat)
    (hpt : pt * b.scale < 2 ^ 64) :
    t.composition 0 = some 0 ∧
    ((∀ c, t.composition 1 = some c → 1 < w.length → pt < c) → t.compSample pt = some 0) ∧
    ∀ n c, n < w.length → t.composition n = some c → (pt = c ∨ n + 1 = w.length ∧ c ≤ pt) → t.compSample pt = some n := by
  rcases h.opened with ⟨es, ht⟩ | ⟨ho, hs, hcnt, hsc⟩
  · obtain ⟨hdec, hcount, hscale, hlen⟩ := timed_dec ht
    obtain ⟨hcomps, hct, _⟩ := timed_comps ht h.ctts
    have hfit := ht.fits
    obtain ⟨n, hn, hiff⟩ := decoding_number es ht.ne ht.pos (raw pt t.scale) (by omega) (raw_lt _ _)
    have hp := expand_pos ht.pos
    obtain ⟨q, hq⟩ := h.scale
    have hw : w.length = (expand es).length := by rw [← h.count, ht.count]
    have hsp := ht.scale
    have hcomp : ∀ i, i < (expand es).length → t.composition i = some (q * startOf (expand es) i) := by
      intro i hi
      simp only [Track.composition, compositionTime, hcomps, compsOf_get, List.getElem?_eq_getElem hi, Option.map_some, Nat.add_zero]
      rw [hns_eq _ _ (by have := startOf_le_sum (expand es) i; omega), hscale, hq, Nat.mul_assoc, Nat.mul_div_cancel_left _ hsp]
    have hraw : raw pt t.scale = pt / q := by
      rw [raw, hscale, Nat.mod_eq_of_lt hpt, hq, Nat.mul_comm b.scale q, Nat.mul_div_mul_right _ _ hsp]
    have hq0 : 0 < q := by
      rcases Nat.eq_zero_or_pos q with h0 | h0
      · rw [h0] at hq; omega
      · exact h0
    have hle : ∀ i, i < (expand es).length → (q * startOf (expand es) i ≤ pt ↔ i ≤ n) := by
      intro i hi
      rw [← hiff i hi, hraw, Nat.le_div_iff_mul_le hq0, Nat.mul_comm]
    refine ⟨by rw [hcomp 0 (by omega)]; simp [startOf], ?_, ?_⟩
    · intro hc
      have hn0 : n = 0 ∨ t.count ≤ n ∧ t.count = 1 := by
        by_cases h1 : 1 < w.length
        · have := hc _ (hcomp 1 (by omega)) h1
          have := (hle 1 (by omega))
          omega
        · omega
      have hr2 : t.compSampleRaw (raw pt t.scale) = some n := by simp only [Track.compSampleRaw, hct, hdec, hn]; rfl
      simp only [Track.compSample, hr2]
      rcases hn0 with h0 | ⟨h0, h1⟩
      · rw [if_pos h0]
      · by_cases h2 : n = 0
        · rw [if_pos h2]
        · rw [if_neg h2, if_pos (by omega), h1]
    · intro j c hj hcj hor
      rw [hcomp j (by omega)] at hcj
      simp only [Option.some.injEq] at hcj
      have hr2 : t.compSampleRaw (raw pt t.scale) = some n := by simp only [Track.compSampleRaw, hct, hdec, hn]; rfl
      have hjn : j ≤ n := (hle j (by omega)).1 (by omega)
      simp only [Track.compSample, hr2]
      by_cases h0 : n = 0
      · rw [if_pos h0]; congr 1; omega
      rw [if_neg h0]
      by_cases h1 : n ≥ t.count
      · rw [if_pos h1]
        congr 1
        rcases hor with he | he
        · by_contra hne
          have h2 := startOf_lt (expand es) hp (j + 1) j (by omega) (by omega)
          have h3 := (hle (j + 1) (by omega)).2 (by omega)
          have h4 := Nat.mul_lt_mul_of_pos_left h2 hq0
          omega
        · omega
      · rw [if_neg h1]
        have hnj : n = j := by
          rcases hor with he | he
          · by_contra hne
            have h2 := startOf_lt (expand es) hp (j + 1) j (by omega) (by omega)
            have h3 := (hle (j + 1) (by omega)).2 (by omega)
            have h4 := Nat.mul_lt_mul_of_pos_left h2 hq0
            omega
          · omega
        subst hnj
        rw [show compositionTime t.comps n = some (startOf (expand es) n) by
          simp [compositionTime, hcomps, compsOf_get, List.getElem?_eq_getElem (show n < (expand es).length by omega)]]
        simp only
        rcases hor with he | he
        · have : ¬ startOf (expand es) n < raw pt t.scale := by
            rw [hraw, he, ← hcj, Nat.mul_div_cancel_left _ hq0]; omega
          simp only [if_neg this, if_neg h1]
        · by_cases h3 : startOf (expand es) n < raw pt t.scale
          · simp only [if_pos h3]
            rw [if_pos (by omega)]; congr 1; omega
          · simp only [if_neg h3, if_neg h1]
  · obtain ⟨d, c, f, h1, h2, _, h4, h5, h6, h7, _, _, h10, _⟩ := openTrack_fields ho
    rw [hs] at h1
    have hw : w.length = 1 := by rw [← h.count, hcnt]
    simp [parseStts, pairs, sttsRdStep, sttsInner] at h1
    rw [h.ctts] at h2 h7
    simp [openCtts] at h2; subst h2
    have hcomp : t.comps = [⟨0, 0, 0⟩, ⟨0, 0, 0⟩] := by rw [h6, ← h1]
    have hcs : t.compSample pt = some 0 := by
      have hr2 : t.compSampleRaw (raw pt t.scale) = some 0 := by
        obtain ⟨code, i, d', g1, g2, g3⟩ := Verif.RangeMap.range_map_total t.decMap (raw pt t.scale) (by rw [h5, ← h1]; decide)
        have hm : t.decMap = [(0, ⟨0, 0, 0⟩)] := by rw [h5, ← h1]; decide
        rw [hm] at g2
        have hd : d' = (0, ⟨0, 0, 0⟩) := by
          cases i with
          | zero => simpa using g2.symm
          | succ i => simp at g2
        simp only [Track.compSampleRaw, h7, decodingSampleNumber, g1, hd]; rfl
      simp only [Track.compSample, hr2]; rfl
    have hc0 : t.composition 0 = some 0 := by
      simp [Track.composition, compositionTime, hcomp, hns]
    refine ⟨hc0, fun _ => hcs, ?_⟩
    intro n c hn _ _
    rw [hcs]; congr 1; omega

/-- what is answered for a time that a sample lies at or before -/
theorem interpolated_at (bits : Nat) (hb : bits = 32 ∨ bits = 64) (t : Track) (read : Nat → Stored) (n c p k : Nat) (pt : Nat)
    (hs : if t.offset < pt + t.offset then t.compSample pt = some n else n = 0) (hc : t.composition n = some c) (hp : t.sm.offset n = some p)
    (hm : (read p).user ≠ flagMissing) (hk : (read p).code.toNat = digits (codeOf k)) (hle : c ≤ pt) (hmul : (pt - c) % 400000 = 0)
    (h64 : pt < 2 ^ 32 * 10000000) :
    ∃ u, interpolated bits t 400000 read (pt + t.offset) = some { code := toWord (codeOf (k + (pt - c) / 400000)), user := u } := by
  obtain ⟨w1, w2⟩ := of_digits _ k hk
  have h1 : (if t.offset < pt + t.offset then pt + t.offset - t.offset else 0) = pt := by split <;> omega
  have h2 : (if t.offset < pt + t.offset then t.compSample pt else some 0) = some n := by
    by_cases h : t.offset < pt + t.offset
    · rw [if_pos h] at hs; rw [if_pos h, hs]
    · rw [if_neg h] at hs; rw [if_neg h, hs]
  simp only [interpolated, h1, h2, hc, hp, answer]
  rw [if_neg hm]
  have hn25 : u32 (10000000 / 400000) = 25 := by decide
  by_cases he : pt = c
  · subst he
    rw [Nat.sub_self, Nat.zero_div, Nat.add_zero]
    split
    · exact ⟨flagRead, by rw [w1]; rfl⟩
    · refine ⟨flagInterpolated, ?_⟩
      rw [if_neg (by omega), sub_zero bits hb _ (by rw [w2]; have := codeOf_proper k; simp only [Proper] at this ⊢; omega), w2]
      rfl
  · have hfar : ¬ (u64 (c + 2 ^ 64 - 400000) < pt ∧ pt < u64 (c + 400000)) := by
      simp only [u64]; omega
    rw [if_neg hfar, if_pos (by omega), hn25, w2]
    refine ⟨flagInterpolated, ?_⟩
    rw [show ({ codeOf k with nFrames := 25 } : TC) = codeOf k from rfl, add_codeOf _ _ (by omega)]

theorem run_codes (r : List (Nat × BitVec 32)) (hr : Spec.Run r) (h : Nat × BitVec 32) (hh : r[0]? = some h) (k : Nat)
    (hk : h.2.toNat = digits (codeOf k)) : ∀ j x, r[j]? = some x → x.1 = h.1 + 400000 * j ∧ x.2 = toWord (codeOf (k + j)) := by
  intro j
  induction j with
  | zero => intro x hx; rw [hh] at hx; simp at hx; subst hx; exact ⟨rfl, (of_digits _ k hk).1⟩
  | succ j ih =>
    intro x hx
    have hj : j < r.length := by have := (List.getElem?_eq_some_iff.1 hx).1; omega
    obtain ⟨y, hy⟩ : ∃ y, r[j]? = some y := ⟨r[j], List.getElem?_eq_getElem hj⟩
    obtain ⟨i1, i2⟩ := ih y hy
    obtain ⟨f1, k', f2, f3⟩ := hr j y x hy hx
    have e : codeOf (k + j) = codeOf k' := by
      rw [← (of_digits y.2 k' f2).2, i2, (word_codeOf (k + j)).2]
    refine ⟨by rw [f1, i1, Nat.mul_add, Nat.add_assoc], ?_⟩
    rw [(of_digits x.2 (k' + 1) f3).1, ← inc_codeOf k', ← e, inc_codeOf]; rfl

/-- C133: a history of time codes, cut into runs, is written and read. For every sample of the first and of the last run,
and for the first sample of every run, the file answers its time code when it is asked at the time of the sample. -/
theorem timecode_found_partial (bits : Nat) (hb : bits = 32 ∨ bits = 64) (rs : List (List (Nat × BitVec 32))) (hr : Runs rs)
    (hs : Steady rs.flatten) (hc : ∀ x ∈ rs.flatten, Coded x)
    (hfit : ∀ x ∈ rs.flatten, x.1 < 2 ^ 32 * 10000000) (h0 : ∀ x, rs.flatten.head? = some x → ¬ (x.1 < 10000 ∧ x.2 = 0))
    (b : TrackBoxes) (t : Track) (read : Nat → Stored) (hcar : Carries b t read (queueAll {} rs.flatten))
    (hscale : ∀ x ∈ rs.flatten, x.1 * b.scale < 2 ^ 64)
    (i j : Nat) (r : List (Nat × BitVec 32)) (x : Nat × BitVec 32) (hi : rs[i]? = some r) (hj : r[j]? = some x)
    (hij : i = 0 ∨ i + 1 = rs.length ∨ j = 0) :
    ∃ u, interpolated bits t 400000 read x.1 = some { code := x.2, user := u } := by
  rw [thinned_partial rs hr hs hc (fun x hx => by have := hfit x hx; omega) h0] at hcar
  have hmap : ∀ (rs : List (List (Nat × BitVec 32))), (∀ r ∈ rs, r ≠ []) → (rs.filterMap List.head?).length = rs.length ∧
      ∀ (n : Nat) (r : List (Nat × BitVec 32)), rs[n]? = some r → (rs.filterMap List.head?)[n]? = r[0]? := by
    intro rs
    induction rs with
    | nil => intro _; exact ⟨rfl, by intro n r h; simp at h⟩
    | cons a as ih =>
      intro h
      obtain ⟨i1, i2⟩ := ih (fun r hr => h r (by simp [hr]))
      cases a with
      | nil => exact absurd rfl (h [] (by simp))
      | cons y l =>
        simp only [List.filterMap_cons, List.head?_cons, List.length_cons, i1, true_and]
        intro n r hn
        cases n with
        | zero => simp at hn; subst hn; rfl
        | succ n => simpa using i2 n r (by simpa using hn)
  obtain ⟨hlen, hget⟩ := hmap rs hr.ne
  have hmem : ∀ (n : Nat) (r : List (Nat × BitVec 32)) (y : Nat × BitVec 32), rs[n]? = some r → y ∈ r → y ∈ rs.flatten := fun n r y h1 h2 =>
    List.mem_flatten.2 ⟨r, List.mem_of_getElem? h1, h2⟩
  have hne := hr.ne r (List.mem_of_getElem? hi)
  obtain ⟨y, hy⟩ : ∃ y, r[0]? = some y := by
    cases r with
    | nil => exact absurd rfl hne
    | cons y l => exact ⟨y, rfl⟩
  have hyr := List.mem_of_getElem? hy
  have hxr := List.mem_of_getElem? hj
  obtain ⟨k, hk⟩ := hc y (hmem i r y hi hyr)
  obtain ⟨x1, x2⟩ := run_codes r (hr.run r (List.mem_of_getElem? hi)) y hy k hk j x hj
  obtain ⟨c, p, c1, c2, c3, c4, c5⟩ := hcar.samples i y (by rw [hget i r hi, hy])
  have hxm := hmem i r x hi hxr
  have hil : i < rs.length := (List.getElem?_eq_some_iff.1 hi).1
  obtain ⟨f0, f1, f2⟩ := finds hcar (x.1 - t.offset) (by
    have := hscale x hxm
    exact Nat.lt_of_le_of_lt (Nat.mul_le_mul_right _ (Nat.sub_le _ _)) this)
  rw [hlen] at f1 f2
  have hxo : x.1 = x.1 - t.offset + t.offset := by omega
  have hcx : c ≤ x.1 - t.offset := by omega
  have hfitx := hfit x hxm
  have key := interpolated_at bits hb t read i c p k (x.1 - t.offset) ?_ c1 c3 c5 (by rw [c4]; exact hk) hcx (by omega) (by omega)
  · obtain ⟨u, hu⟩ := key
    refine ⟨u, ?_⟩
    rw [← hxo] at hu
    rw [hu, x2, show (x.1 - t.offset - c) / 400000 = j by omega]
  · have hpick : t.compSample (x.1 - t.offset) = some i := by
      rcases hij with h | h | h
      · subst h
        refine f1 ?_
        intro c' hc' hl
        obtain ⟨r', hr'⟩ : ∃ r', rs[1]? = some r' := ⟨rs[1], List.getElem?_eq_getElem hl⟩
        obtain ⟨y', hy'⟩ : ∃ y', r'[0]? = some y' := by
          cases hh : r' with
          | nil => exact absurd hh (hr.ne r' (List.mem_of_getElem? hr'))
          | cons y' l => exact ⟨y', rfl⟩
        obtain ⟨c'', p'', e1, e2, _⟩ := hcar.samples 1 y' (by rw [hget 1 r' hr', hy'])
        rw [hc'] at e1
        simp at e1; subst e1
        have hlt : x.1 < y'.1 := by
          cases rs with
          | nil => simp at hi
          | cons a as =>
            simp at hi; subst hi
            rw [List.flatten_cons] at hs
            have hp := List.pairwise_append.1 hs
            refine (hp.2.2 x hxr y' ?_).1
            exact List.mem_flatten.2 ⟨r', List.mem_of_getElem? (by simpa using hr'), List.mem_of_getElem? hy'⟩
        omega
      · exact f2 i c hil c1 (Or.inr ⟨h, hcx⟩)
      · exact f2 i c hil c1 (Or.inl (by subst h; omega))
    split
    · exact hpick
    · rename_i hno
      have hz : x.1 - t.offset = 0 := by omega
      have hc0 : c = 0 := by omega
      by_contra hine
      have e := f2 0 0 (by omega) f0 (Or.inl hz)
      rw [hpick] at e
      simp at e; exact hine e

/-! ### a concrete stream, and what the code does wrong -/

/-- three runs: 10:00:00:00 … 10:00:00:02, 11:00:00:00 … 11:00:00:02, 12:00:00:00 -/
def exRuns : List (List (Nat × BitVec 32)) :=
  [[(10000000, 0x10000000#32), (10400000, 0x10000001#32), (10800000, 0x10000002#32)],
   [(11200000, 0x11000000#32), (11600000, 0x11000001#32), (12000000, 0x11000002#32)], [(12400000, 0x12000000#32)]]

/-- the track with the three samples written -/
def exBoxes : TrackBoxes := { sm := ⟨[(3, ⟨3, 1, 0, 1⟩)], 14, 3, [], [500]⟩, stts := [1, 3, 120], scale := 1000, elst := 1000, mvhdScale := 1000 }
/-- the same opened -/
def exTrack : Track := (openTrack exBoxes).getD ⟨⟨[], 0, 0, [], []⟩, [], [], false, [], false, [], 0, 0, 1, 0, 0, false, false⟩
/-- the records in the file -/
def exRead (p : Nat) : Stored :=
  if p = 500 then ⟨0x10000000#32, 0⟩ else if p = 514 then ⟨0x11000000#32, 0⟩ else ⟨0x12000000#32, 0⟩

theorem coded_of (x : Nat × BitVec 32) (k : Nat) (h : x.2.toNat = digits (codeOf k)) : Coded x := ⟨k, h⟩

theorem run_of (l : List (Nat × BitVec 32)) (k : Nat) (h : ∀ j x, l[j]? = some x → x.1 = (l.headD (0, 0)).1 + 400000 * j ∧ x.2.toNat = digits (codeOf (k + j))) :
    Run l := by
  intro i x y hx hy
  obtain ⟨a1, a2⟩ := h i x hx
  obtain ⟨b1, b2⟩ := h (i + 1) y hy
  exact ⟨by rw [a1, b1, Nat.mul_add, Nat.add_assoc], k + i, a2, b2⟩

theorem ex_runs : Runs exRuns := by
  refine ⟨by decide, ?_, ?_⟩
  · intro r hr
    simp only [exRuns, List.mem_cons, List.not_mem_nil, or_false] at hr
    rcases hr with rfl | rfl | rfl
    · refine run_of _ 900000 ?_
      intro j x hx
      match j with
      | 0 | 1 | 2 => simp at hx; subst hx; decide
      | j + 3 => simp at hx
    · refine run_of _ 990000 ?_
      intro j x hx
      match j with
      | 0 | 1 | 2 => simp at hx; subst hx; decide
      | j + 3 => simp at hx
    · refine run_of _ 1080000 ?_
      intro j x hx
      match j with
      | 0 => simp at hx; subst hx; decide
      | j + 1 => simp at hx
  · intro i r r' x y h1 h2 h3 h4 hf
    obtain ⟨k, f2, f3⟩ := hf.2
    have key : ∀ (m : Nat) (u : BitVec 32), x.2.toNat = digits (codeOf m) → y.2 = u → toWord (codeOf (m + 1)) ≠ u → False := by
      intro m u e1 e2 e3
      have e : codeOf m = codeOf k := by rw [← (of_digits x.2 m e1).2, (of_digits x.2 k f2).2]
      apply e3
      rw [← inc_codeOf, e, inc_codeOf, ← e2, (of_digits y.2 (k + 1) f3).1]
    match i with
    | 0 =>
      simp [exRuns] at h1 h2; subst h1 h2; simp at h3 h4; subst h3 h4
      exact key 900002 _ (by decide) rfl (by decide)
    | 1 =>
      simp [exRuns] at h1 h2; subst h1 h2; simp at h3 h4; subst h3 h4
      exact key 990002 _ (by decide) rfl (by decide)
    | i + 2 => simp [exRuns] at h2

/-- the hypotheses of `thinned_partial` and `timecode_found_partial` are met -/
example : Runs exRuns ∧ Steady exRuns.flatten ∧ (∀ x ∈ exRuns.flatten, Coded x) ∧
    Carries exBoxes exTrack exRead (queueAll {} exRuns.flatten) := by
  refine ⟨ex_runs, by unfold Steady; decide, ?_, ⟨Or.inl ⟨[(3, 120)], rfl, rfl, by decide, by decide, rfl, by decide, by decide⟩, rfl,
    ⟨10000, rfl⟩, by decide, ?_⟩⟩
  · intro x hx
    simp only [exRuns, List.flatten_cons, List.flatten_nil, List.cons_append, List.nil_append, List.append_nil, List.mem_cons,
      List.not_mem_nil, or_false] at hx
    rcases hx with rfl | rfl | rfl | rfl | rfl | rfl | rfl
    · exact coded_of _ 900000 (by decide)
    · exact coded_of _ 900001 (by decide)
    · exact coded_of _ 900002 (by decide)
    · exact coded_of _ 990000 (by decide)
    · exact coded_of _ 990001 (by decide)
    · exact coded_of _ 990002 (by decide)
    · exact coded_of _ 1080000 (by decide)
  · intro n x hx
    have hq : queueAll {} exRuns.flatten = [(10000000, 0x10000000#32), (11200000, 0x11000000#32), (12400000, 0x12000000#32)] := by decide
    rw [hq] at hx
    match n with
    | 0 => simp at hx; subst hx; exact ⟨0, 500, by decide, by decide, by decide, by decide, by decide⟩
    | 1 => simp at hx; subst hx; exact ⟨1200000, 514, by decide, by decide, by decide, by decide, by decide⟩
    | 2 => simp at hx; subst hx; exact ⟨2400000, 528, by decide, by decide, by decide, by decide, by decide⟩
    | n + 3 => simp at hx

/-- C133 is false of the code in the middle runs: asked at 11600000, where the time code 11:00:00:01 was given, the file
answers 11:59:59:23 (Windows) and a word that is no time code (Linux): the code is computed backwards from the next
sample written. -/
theorem middle_run_witness :
    interpolated 32 exTrack 400000 exRead 11600000 = some ⟨0x11595923#32, flagInterpolated⟩ ∧
    ((interpolated 64 exTrack 400000 exRead 11600000).map (fun r => (ofWord r.code).valid)) = some false := by
  decide

/-- C133 is false of the code for a stream that begins with 00:00:00:00 at time 0: nothing is written at all. -/
theorem zero_start_witness : queueAll {} [(0, 0#32), (400000, 1#32), (800000, 2#32)] = [] := by decide

/-- The first sample at the beginning of the track is never reported as read, but as interpolated. -/
theorem first_flag_witness :
    interpolated 64 exTrack 400000 exRead 10000000 = some ⟨0x10000000#32, flagInterpolated⟩ ∧
    interpolated 64 exTrack 400000 exRead 11200000 = some ⟨0x11000000#32, flagRead⟩ := by decide

/-- With 30 frames per second the frames between samples are counted as if there were 25: 29 frames after 12:00:00:00 the
file answers 12:00:00:24. -/
theorem thirty_witness :
    interpolated 64 exTrack 333333 exRead (12400000 + 29 * 333333) = some ⟨0x12000024#32, flagInterpolated⟩ := by decide

end Verif.TimeCode

import Verif.Publish.Spec
import Verif.Reader.PropsFrames
/-
Lemmas for the points of audio streams.
-/
namespace Verif.Publish
open Verif.Tables Verif.Reader Verif.Reader.Spec Verif.Publish.Spec
open Verif.Tables.Spec (expand)

theorem hns_small {t scale : Nat} (h : 10000000 * t < 2 ^ 64) : hns t scale = 10000000 * t / scale := by
  rw [hns, Nat.mod_eq_of_lt h]

theorem startOf_le_sum (D : List Nat) (i : Nat) : startOf D i ≤ D.sum := by
  have := List.sum_append (l₁ := D.take i) (l₂ := D.drop i)
  rw [List.take_append_drop] at this
  unfold startOf; omega

theorem timeOf_ok {b : TrackBoxes} {T : Track} {es : List (Nat × Nat)} (h : Timed b T es) (hc : b.ctts = none) (p : Nat)
    (hp : p < (expand es).length) : timeOf T p = .ok (10000000 * ((expand es).take p).sum / T.scale + T.offset) := by
  obtain ⟨_, h2, _⟩ := timed_comps h hc
  have h4 := timed_decoding h p hp
  have := startOf_le_sum (expand es) p
  have hf := h.fits
  simp only [timeOf, h2, Track.decoding, h4]
  rw [Option.map_some, hns_small (by omega)]
  rfl

theorem start_first {b : TrackBoxes} {T : Track} {es : List (Nat × Nat)} (h : Timed b T es) (hc : b.ctts = none) :
    T.compSample 0 = some 0 := by
  obtain ⟨m, h1, h2, _, h4⟩ := compSample_plain h hc 0
  have := h4 0 (by omega) (by simp [raw])
  rw [h1]; congr; omega

/-- the sample found for a time, exactly -/
theorem compSample_first {b : TrackBoxes} {T : Track} {es : List (Nat × Nat)} (h : Timed b T es) (hc : b.ctts = none) (time p : Nat)
    (hp : p < (expand es).length) (h1 : ∀ i < p, startOf (expand es) i < raw time T.scale) (h2 : raw time T.scale ≤ startOf (expand es) p)
    (h3 : p = 1 → startOf (expand es) 1 ≤ raw time T.scale) : T.compSample time = some p := by
  obtain ⟨hdec, hcount, hscale, hlen⟩ := timed_dec h
  obtain ⟨hcomps, hct, _⟩ := timed_comps h hc
  have hfit := h.fits
  obtain ⟨n, hn, hiff⟩ := decoding_number es h.ne h.pos (raw time T.scale) (by omega) (raw_lt _ _)
  have hpos := expand_pos h.pos
  obtain ⟨τ, hτ⟩ : ∃ τ, τ = raw time T.scale := ⟨_, rfl⟩
  rw [← hτ] at hn hiff h1 h2 h3
  have hraw : T.compSampleRaw τ = some n := by simp only [Track.compSampleRaw, hct, hdec, hn]; rfl
  have hct' : ∀ i, i < (expand es).length → compositionTime T.comps i = some (startOf (expand es) i) := by
    intro i hi
    simp [compositionTime, hcomps, compsOf_get, List.getElem?_eq_getElem hi]
  rw [← hcount] at hp hlen hiff hct'
  have hlow : p ≤ n + 1 := by
    rcases Nat.eq_zero_or_pos p with h | h
    · omega
    · have := (hiff (p - 1) (by omega)).1 (Nat.le_of_lt (h1 (p - 1) (by omega))); omega
  have hup : n < T.count → n ≤ p := by
    intro hnc
    by_contra hcon
    have := (hiff n hnc).2 (Nat.le_refl _)
    have := startOf_lt (expand es) hpos n p (by omega) (by omega)
    omega
  simp only [Track.compSample, ← hτ, hraw]
  by_cases h0 : n = 0
  · rw [if_pos h0]
    have : p ≠ 1 := by
      intro h
      have := (hiff 1 (by omega)).1 (h3 h)
      omega
    have : p = 0 := by omega
    rw [this]
  rw [if_neg h0]
  by_cases hnc : n ≥ T.count
  · rw [if_pos hnc]
    have h5 := (hiff (T.count - 1) (by omega)).2 (by omega)
    have : p = T.count - 1 := by
      by_contra hcon
      have := startOf_lt (expand es) hpos (T.count - 1) p (by omega) (by omega)
      omega
    rw [this]
  rw [if_neg hnc, hct' n (by omega)]
  have := hup (by omega)
  have hle := (hiff n (by omega)).2 (Nat.le_refl _)
  simp only
  rcases Nat.eq_or_lt_of_le this with h | h
  · subst h
    simp only [if_neg (show ¬ startOf (expand es) n < τ by omega), if_neg hnc]
  · have hpn : p = n + 1 := by omega
    simp only [if_pos (h1 n (by omega)), if_neg (show ¬ n + 1 ≥ T.count by omega), hpn]

theorem foldl_max_le {l : List Nat} {a M : Nat} (ha : a = M) (h : ∀ x ∈ l, x ≤ M) : l.foldl max a = M := by
  induction l generalizing a with
  | nil => exact ha
  | cons x l ih =>
    have := h x (by simp)
    rw [List.foldl_cons]
    exact ih (by omega) (fun y hy => h y (by simp [hy]))

theorem foldl_min_zero {l : List Nat} : l.foldl min 0 = 0 := by
  induction l with
  | nil => rfl
  | cons x l ih => rw [List.foldl_cons, Nat.zero_min]; exact ih

theorem sampleDuration_plain {b : TrackBoxes} {T : Track} {es : List (Nat × Nat)} (h : Timed b T es) (hc : b.ctts = none) (media : Nat)
    (h2 : 2 ≤ (expand es).length) : sampleDuration T media = 10000000 * (expand es).sum / T.scale / (expand es).length := by
  obtain ⟨hcomps, hct, _⟩ := timed_comps h hc
  obtain ⟨_, hn, _, _⟩ := timed_dec h
  have hf := h.fits
  have hpos := expand_pos h.pos
  generalize hD : expand es = D at *
  have hstart : startTime T = 0 := by
    unfold startTime
    rw [hct, hcomps]
    obtain ⟨d, D', rfl⟩ := List.exists_cons_of_ne_nil (l := D) (by intro h; simp [h] at h2)
    simp only [compsOf, List.mapIdx_cons]
    simp [startOf, foldl_min_zero]
  have hlast : (compsOf D)[D.length - 1]? = some ⟨startOf D (D.length - 1), 0, D[D.length - 1]⟩ := by
    rw [compsOf_get, List.getElem?_eq_getElem (by omega)]; rfl
  have hend : endTime T = D.sum := by
    unfold endTime
    rw [hct, hcomps, hn]
    simp only [Bool.false_eq_true, if_false, hlast, Option.map_some, Option.getD_some, Nat.add_zero]
    rw [foldl_max_le (M := startOf D (D.length - 1)) rfl]
    · have : D.take (D.length - 1 + 1) = D.take (D.length - 1) ++ [D[D.length - 1]] := by
        rw [List.take_succ, List.getElem?_eq_getElem (by omega)]; rfl
      have h3 : D.take (D.length - 1 + 1) = D := List.take_of_length_le (by omega)
      rw [h3] at this
      have h6 := congrArg List.sum this
      rw [List.sum_append, List.sum_singleton] at h6
      unfold startOf; omega
    · intro x hx
      obtain ⟨c, hcm, rfl⟩ := List.mem_map.1 hx
      obtain ⟨i, hi, he⟩ := List.getElem_of_mem (List.mem_of_mem_drop hcm)
      have h5 := compsOf_get D i
      rw [List.getElem?_eq_getElem hi, he, List.getElem?_eq_getElem (by simpa [compsOf] using hi)] at h5
      simp at h5
      have hi' : i < D.length := by simpa [compsOf] using hi
      rw [h5]
      exact startOf_le D hpos i (D.length - 1) (by omega) (by omega)
  unfold sampleDuration
  rw [hn, if_neg (by omega), hstart, hend, hns_small hf]
  have : (10000000 * D.sum / T.scale) < 2 ^ 64 := Nat.lt_of_le_of_lt (Nat.div_le_self _ _) hf
  simp [hns, sub64]
  rw [Nat.mod_eq_of_lt (by omega)]

/-- what is left of the samples as pending -/
def pendOf (l : List (Nat × Nat)) : Pending := (l.head?).map fun x => (x.2, l.length)

theorem points_short {jump : Nat} {l : List (Nat × Nat)} (h : l.length < jump) : points jump l = ([], pendOf l) := by
  simp [points, segments, Nat.div_eq_of_lt h, pendOf]

theorem points_step {jump : Nat} {l : List (Nat × Nat)} (hj : 0 < jump) (h : jump ≤ l.length) :
    points jump l = (pointOf (l.take jump) :: (points jump (l.drop jump)).1, (points jump (l.drop jump)).2) := by
  have hd : l.length / jump = (l.length - jump) / jump + 1 := by
    rw [← Nat.add_div_right _ hj]; congr 1; omega
  have e : ∀ m, (m + 1) * jump = jump + m * jump := by intro m; rw [Nat.succ_mul]; omega
  simp only [points, segments, List.length_drop, hd, List.range_succ_eq_map, List.map_cons, List.map_map, List.drop_drop,
    e, Nat.zero_mul, List.drop_zero]
  refine Prod.ext ?_ rfl
  simp only [List.cons.injEq, true_and]
  apply List.map_congr_left
  intro m _
  simp only [Function.comp, Nat.succ_eq_add_one, e]

theorem foreign_same (k : Nat) (ts : List Nat) : foreign (ts.map fun t => (k, t)) = none := by
  cases ts with
  | nil => rfl
  | cons t ts => simp [foreign, List.find?_map, Function.comp_def]

theorem foreign_cross (k k' : Nat) (hk : k ≠ k') (a : Nat) (as : List Nat) (c : Nat) (cs : List Nat) :
    foreign (((a :: as).map fun t => (k, t)) ++ ((c :: cs).map fun t => (k', t))) = some c := by
  have h : List.find? (fun y : Nat × Nat => y.1 != k) (as.map fun t => (k, t)) = none := by simp
  simp [foreign, List.find?_append, h, Ne.symm hk]

/-- times of the samples are what `timeOf` gives -/
def Gives (T : Track) (ts : List Nat) : Prop := T.count = ts.length ∧ ∀ p t, ts[p]? = some t → timeOf T p = .ok t

theorem pointLoop_points {T : Track} {ts : List Nat} (hT : Gives T ts) {stop jump : Nat} (hj : 0 < jump) (k : Nat)
    (hs : ∀ t ∈ ts, t < stop) (h64 : 2 * ts.length < 2 ^ 64) : ∀ (fuel p c : Nat), ts.length < p + fuel → ts[p]? = some c → p + jump ≤ ts.length →
    ∃ es pend, pointLoop T stop jump fuel p c = .ok (es, pend) ∧
      points jump ((ts.drop p).map fun t => (k, t)) = (es.map some, pend) := by
  intro fuel
  induction fuel with
  | zero => intro p c h1 h2 h3; omega
  | succ fuel ih =>
    intro p c h1 h2 h3
    have hp : p < ts.length := (List.getElem?_eq_some_iff.1 h2).1
    have hc := hs c (List.mem_of_getElem? h2)
    have hdrop : ts.drop p = c :: ts.drop (p + 1) := by
      rw [List.drop_eq_getElem_cons hp]; congr 1; exact (List.getElem?_eq_some_iff.1 h2).2
    have hpt : pointOf (((ts.drop p).map fun t => (k, t)).take jump) = some (.point c) := by
      rw [← List.map_take, hdrop]
      obtain ⟨j, rfl⟩ : ∃ j, jump = j + 1 := ⟨jump - 1, by omega⟩
      have := foreign_same k (List.take (j + 1) (c :: ts.drop (p + 1)))
      rw [List.take_succ_cons, List.map_cons] at this ⊢
      unfold pointOf; simp only [this]
    have hstep := points_step (l := (ts.drop p).map fun t => (k, t)) hj (by simp; omega)
    rw [hpt, ← List.map_drop, List.drop_drop] at hstep
    have hq : (p + jump) % 2 ^ 64 = p + jump := Nat.mod_eq_of_lt (by omega)
    unfold pointLoop
    rw [if_pos ⟨hc, by rw [hT.1]; exact hp⟩]
    simp only [hq, hT.1]
    by_cases h4 : ts.length ≤ p + jump
    · rw [if_pos h4]
      refine ⟨_, _, rfl, ?_⟩
      rw [hstep, List.drop_of_length_le h4, List.map_nil, points_short (by simpa using hj)]
      simp [pendOf]
    · rw [if_neg h4]
      have hlt : p + jump < ts.length := by omega
      obtain ⟨t, ht⟩ : ∃ t, ts[p + jump]? = some t := ⟨_, List.getElem?_eq_getElem hlt⟩
      by_cases h5 : ts.length - (p + jump) < jump
      · rw [if_pos h5, show ts.length - (ts.length - (p + jump)) = p + jump by omega, hT.2 _ _ ht]
        refine ⟨_, _, rfl, ?_⟩
        rw [hstep, points_short (by simpa using h5)]
        have : (ts.drop (p + jump)).head? = some t := by rw [List.head?_drop]; exact ht
        simp [pendOf, List.head?_map, this]
        omega
      · rw [if_neg h5, hT.2 _ _ ht]
        obtain ⟨es, pend, r1, r2⟩ := ih (p + jump) t (by omega) ht (by omega)
        refine ⟨.point c :: es, pend, ?_, ?_⟩
        · show (do let (es, pend) ← pointLoop T stop jump fuel (p + jump) t; Except.ok (Event.point c :: es, pend)) = _
          rw [r1]; rfl
        · rw [hstep, r2]; rfl

end Verif.Publish
